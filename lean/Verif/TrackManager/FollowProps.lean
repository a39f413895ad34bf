import Verif.TrackManager.Follow
import Verif.TrackManager.ChainProps
import Verif.GyroMatcher.TruthProps

/-!
# C151: track ids are landmarks
-/

namespace Verif.TrackManager.Follow

open Verif (Outcome)
open Verif.GyroMatcher (Input KP runMatch Valid Distinctive trueMatches)
open Verif.TrackManager.Chain (Keypoint MatchedBy Linkable)

/-! ## Specification -/

/-- What is seen: the number of keypoints of every frame and the landmark each keypoint shows. -/
structure Scene where
  count : Nat → Nat
  landmark : Nat → Nat → Nat

/-- The keypoint of the next frame that shows the same landmark. -/
def Scene.counterpart (S : Scene) (f k : Nat) : Option Nat :=
  (List.range (S.count (f + 1))).find? fun i => decide (S.landmark (f + 1) i = S.landmark f k)

/-- The frames show the scene, and the descriptors and predictions are good enough to tell the landmarks apart. -/
structure Shows (S : Scene) (P : Nat → Input) : Prop where
  distinct : ∀ f i j, i < S.count f → j < S.count f → S.landmark f i = S.landmark f j → i = j
  old : ∀ f, (P f).nK = S.count f
  new : ∀ f, (P f).n1 = S.count (f + 1)
  valid : ∀ f, Valid (P f)
  nodup : ∀ f, ((P f).sorted.map KP.idx).Nodup
  distinctive : ∀ f, Distinctive (P f) (S.counterpart f)

/-- The landmark `l` is followed from frame `h` to the next: it is seen in both, and there was a prediction. -/
def Handed (S : Scene) (P : Nat → Input) (l h : Nat) : Prop :=
  ∃ i j, i < S.count h ∧ j < S.count (h + 1) ∧ S.landmark h i = l ∧ S.landmark (h + 1) j = l ∧ (P h).success i = true

/-- The landmark `l` is followed from frame `f` through to frame `g`. -/
def Followed (S : Scene) (P : Nat → Input) (l f g : Nat) : Prop := ∀ h, f ≤ h → h < g → Handed S P l h

/-- Frames whose keypoints are not on a track, the channel of track ids being there (as
`insertCvKeypointsAndDescriptorsIntoEmptyVisualFrame` leaves it), and an id provider that has not been used. -/
structure Start (S : Scene) (w : World) : Prop where
  present : ∀ f, ∃ l, w.ids f = some l
  untracked : ∀ f i, trackOf w f i = none
  next : w.next = 0
  size : ∀ f, TrackManager.size w f = S.count f

/-! ## Proofs -/

theorem counterpart_iff {S : Scene} {P : Nat → Input} (H : Shows S P) (f k i : Nat) :
    S.counterpart f k = some i ↔ i < S.count (f + 1) ∧ S.landmark (f + 1) i = S.landmark f k := by
  constructor
  · intro h
    unfold Scene.counterpart at h
    have h1 := List.mem_of_find?_eq_some h
    have h2 := List.find?_some h
    exact ⟨List.mem_range.1 h1, of_decide_eq_true h2⟩
  · rintro ⟨h1, h2⟩
    cases hc : S.counterpart f k with
    | none =>
      unfold Scene.counterpart at hc
      rw [List.find?_eq_none] at hc
      exact absurd (decide_eq_true h2) (hc i (List.mem_range.2 h1))
    | some j =>
      have hj : j < S.count (f + 1) ∧ S.landmark (f + 1) j = S.landmark f k := by
        unfold Scene.counterpart at hc
        have h4 := List.find?_some hc
        exact ⟨List.mem_range.1 (List.mem_of_find?_eq_some hc), of_decide_eq_true h4⟩
      rw [H.distinct (f + 1) i j h1 hj.1 (h2.trans hj.2.symm)]

theorem mem_true {P : Input} {truth : Nat → Option Nat} {n i k : Nat} :
    (i, k) ∈ trueMatches P truth n ↔ k < n ∧ P.success k = true ∧ truth k = some i := by
  unfold trueMatches
  rw [List.mem_filterMap]
  constructor
  · rintro ⟨k', hk, h⟩
    split at h
    · next hs =>
      cases ht : truth k' with
      | none => rw [ht] at h; cases h
      | some j =>
        rw [ht] at h
        simp only [Option.map_some, Option.some.injEq, Prod.mk.injEq] at h
        obtain ⟨rfl, rfl⟩ := h
        exact ⟨List.mem_range.1 hk, hs, ht⟩
    · cases h
  · rintro ⟨h1, h2, h3⟩
    exact ⟨k, List.mem_range.2 h1, by rw [if_pos h2, h3]; rfl⟩

theorem true_snd (P : Input) (truth : Nat → Option Nat) : ∀ n, ((trueMatches P truth n).map Prod.snd).Nodup ∧
    ∀ k ∈ (trueMatches P truth n).map Prod.snd, k < n
  | 0 => by simp [trueMatches]
  | n + 1 => by
    obtain ⟨h1, h2⟩ := true_snd P truth n
    rw [GyroMatcher.trueMatches_succ]
    cases hx : (if P.success n = true then (truth n).map fun i => (i, n) else none) with
    | none =>
      simp only [Option.toList_none, List.append_nil]
      exact ⟨h1, fun k hk => by have := h2 k hk; omega⟩
    | some m =>
      have hm : m.2 = n := by
        split at hx
        · cases ht : truth n with
          | none => rw [ht] at hx; cases hx
          | some i => rw [ht] at hx; cases hx; rfl
        · cases hx
      rw [Option.toList_some, List.map_append, List.map_singleton, hm]
      refine ⟨List.nodup_append.2 ⟨h1, by simp, ?_⟩, ?_⟩
      · intro a ha b hb
        rw [List.mem_singleton.1 hb]
        have := h2 a ha
        omega
      · intro k hk
        rcases List.mem_append.1 hk with hk | hk
        · have := h2 k hk; omega
        · rw [List.mem_singleton.1 hk]; omega

theorem true_fst {P : Input} {truth : Nat → Option Nat} (D : Distinctive P truth) :
    ((trueMatches P truth P.nK).map Prod.fst).Nodup := by
  have h := (true_snd P truth P.nK).1
  rw [List.nodup_iff_pairwise_ne, List.pairwise_map] at h ⊢
  refine h.imp_of_mem ?_
  rintro ⟨i, k⟩ ⟨j, k'⟩ ha hb hne hij
  rw [mem_true] at ha hb
  subst hij
  exact hne (D.injective k k' i ha.1 hb.1 ha.2.1 hb.2.1 ha.2.2 hb.2.2)

/-- The calls of the track manager. -/
def calls (S : Scene) (P : Nat → Input) : Nat → List Call
  | 0 => []
  | n + 1 => ⟨n + 1, n, handOver (trueMatches (P n) (S.counterpart n) (P n).nK)⟩ :: calls S P n

theorem mem_calls {S : Scene} {P : Nat → Input} : ∀ {n : Nat} {c : Call}, c ∈ calls S P n ↔
    ∃ h, h < n ∧ c = ⟨h + 1, h, handOver (trueMatches (P h) (S.counterpart h) (P h).nK)⟩
  | 0, c => by simp [calls]
  | n + 1, c => by
    unfold calls
    rw [List.mem_cons, mem_calls]
    constructor
    · rintro (rfl | ⟨h, hh, rfl⟩)
      · exact ⟨n, by omega, rfl⟩
      · exact ⟨h, by omega, rfl⟩
    · rintro ⟨h, hh, rfl⟩
      by_cases e : h = n
      · subst e; exact Or.inl rfl
      · exact Or.inr ⟨h, by omega, rfl⟩

theorem matchedBy_iff {S : Scene} {P : Nat → Input} (H : Shows S P) {n : Nat} {p q : Keypoint} :
    MatchedBy (calls S P n) p q ↔ p.1 = q.1 + 1 ∧ q.1 < n ∧ p.2 < S.count p.1 ∧ q.2 < S.count q.1 ∧
      S.landmark p.1 p.2 = S.landmark q.1 q.2 ∧ (P q.1).success q.2 = true := by
  obtain ⟨pf, pi⟩ := p
  obtain ⟨qf, qi⟩ := q
  constructor
  · rintro ⟨c, hc, i, j, hij, h1, h2⟩
    obtain ⟨h, hh, rfl⟩ := mem_calls.1 hc
    simp only [handOver, List.mem_map, Prod.mk.injEq] at hij h1 h2
    obtain ⟨⟨a, b⟩, hm, rfl, rfl⟩ := hij
    obtain ⟨rfl, rfl⟩ := h1
    obtain ⟨rfl, rfl⟩ := h2
    simp only [Int.toNat_natCast]
    rw [mem_true, counterpart_iff H, H.old] at hm
    exact ⟨trivial, hh, hm.2.2.1, hm.1, hm.2.2.2, hm.2.1⟩
  · rintro ⟨h1, h2, h3, h4, h5, h6⟩
    simp only at h1 h2 h3 h4 h5 h6
    subst h1
    refine ⟨_, mem_calls.2 ⟨qf, h2, rfl⟩, pi, qi, ?_, rfl, rfl⟩
    refine List.mem_map.2 ⟨(pi, qi), ?_, rfl⟩
    rw [mem_true, counterpart_iff H, H.old]
    exact ⟨h4, h6, h3, h5⟩

theorem some_of_getElem {w : World} {f i : Nat} {t : Int} (h : (vec w f)[i]? = some t) : ∃ l, w.ids f = some l := by
  unfold vec at h
  cases hf : w.ids f with
  | none => rw [hf] at h; simp at h
  | some l => exact ⟨l, rfl⟩

theorem size_put {w : World} {f i : Nat} {t : Int} (h : ∃ l, w.ids f = some l) (g : Nat) :
    size (put w f i t) g = size w g := by
  obtain ⟨l, hl⟩ := h
  unfold size put vec
  simp only
  by_cases e : g = f
  · subst e
    rw [if_pos rfl, hl]
    simp
  · rw [if_neg e]

theorem put_some {w : World} {f i : Nat} {t : Int} {g : Nat} (h : ∃ l, w.ids g = some l) :
    ∃ l, (put w f i t).ids g = some l := by
  unfold put
  simp only
  split
  · exact ⟨_, rfl⟩
  · exact h

theorem link_size {a b i j : Nat} {w w' : World} (h : link a b i j w = .ok w') (g : Nat) : size w' g = size w g := by
  unfold link at h
  split at h
  · next ta tb ea eb =>
    have ha := some_of_getElem ea
    have hb := some_of_getElem eb
    split at h
    · cases h
      have ha' : ∃ l, (newId w).2.ids a = some l := ha
      have hb' : ∃ l, (newId w).2.ids b = some l := hb
      rw [size_put (put_some hb'), size_put ha']
      rfl
    · split at h
      · cases h; rfl
      · split at h
        · split at h
          · cases h; exact size_put ha g
          · cases h
        · cases h; exact size_put hb g
  · cases h

theorem loop_size {a b : Nat} : ∀ (ms : List (Int × Int)) {cA cB : List Int} {w w' : World},
    applyLoop a b ms cA cB w = .ok w' → ∀ g, size w' g = size w g
  | [], cA, cB, w, w', h, g => by
    unfold applyLoop at h
    cases h
    rfl
  | m :: ms, cA, cB, w, w', h, g => by
    unfold applyLoop at h
    obtain ⟨w1, h1, h2⟩ := Outcome.bind_eq_ok.1 h
    rw [loop_size ms h2 g]
    unfold applyOne at h1
    split at h1
    · exact link_size h1 g
    · cases h1

theorem apply_size {a b : Nat} {ms : List (Int × Int)} {w w' : World} (h : applyMatches a b ms w = .ok w') (g : Nat) :
    size w' g = size w g := by
  unfold applyMatches at h
  rw [loop_size ms h g, size_create, size_create]

theorem link_frame {a b i j : Nat} {w w' : World} (h : link a b i j w = .ok w') :
    w'.kps = w.kps ∧ (∀ g, g ≠ a → g ≠ b → w'.ids g = w.ids g) ∧
      ∀ g, (∃ l, w.ids g = some l) → ∃ l, w'.ids g = some l := by
  have hp : ∀ (u : World) (f i : Nat) (v : Int), (put u f i v).kps = u.kps ∧
      (∀ g, g ≠ f → (put u f i v).ids g = u.ids g) ∧ ∀ g, (∃ l, u.ids g = some l) → ∃ l, (put u f i v).ids g = some l :=
    fun u f i v => ⟨rfl, fun g hg => if_neg hg, fun g hg => put_some hg⟩
  unfold link at h
  split at h
  · split at h
    · cases h
      refine ⟨rfl, fun g ha hb => ?_, fun g hg => ?_⟩
      · rw [(hp _ b _ _).2.1 g hb, (hp _ a _ _).2.1 g ha]
        rfl
      · exact (hp _ b _ _).2.2 g ((hp _ a _ _).2.2 g hg)
    · split at h
      · cases h
        exact ⟨rfl, fun _ _ _ => rfl, fun _ hg => hg⟩
      · split at h
        · split at h
          · cases h
            exact ⟨rfl, fun g ha _ => (hp _ a _ _).2.1 g ha, fun g hg => (hp _ a _ _).2.2 g hg⟩
          · cases h
        · cases h
          exact ⟨rfl, fun g _ hb => (hp _ b _ _).2.1 g hb, fun g hg => (hp _ b _ _).2.2 g hg⟩
  · cases h

theorem loop_frame {a b : Nat} : ∀ (ms : List (Int × Int)) {cA cB : List Int} {w w' : World},
    applyLoop a b ms cA cB w = .ok w' → w'.kps = w.kps ∧ (∀ g, g ≠ a → g ≠ b → w'.ids g = w.ids g) ∧
      ∀ g, (∃ l, w.ids g = some l) → ∃ l, w'.ids g = some l
  | [], _, _, w, w', h => by
    unfold applyLoop at h
    cases h
    exact ⟨rfl, fun _ _ _ => rfl, fun _ hg => hg⟩
  | m :: ms, cA, cB, w, w', h => by
    obtain ⟨w1, h1, h2⟩ := applyLoop_cons h
    obtain ⟨_, _, _, _, hl⟩ := applyOne_ok h1
    obtain ⟨k1, i1, s1⟩ := link_frame hl
    obtain ⟨k2, i2, s2⟩ := loop_frame ms h2
    exact ⟨k2.trans k1, fun g ha hb => (i2 g ha hb).trans (i1 g ha hb), fun g hg => s2 g (s1 g hg)⟩

theorem create_frame (w : World) (f : Nat) : (createChannel w f).kps = w.kps ∧
    (∀ g, g ≠ f → (createChannel w f).ids g = w.ids g) ∧ (∃ l, (createChannel w f).ids f = some l) ∧
      ∀ g, (∃ l, w.ids g = some l) → ∃ l, (createChannel w f).ids g = some l := by
  unfold createChannel
  cases h : w.ids f with
  | some l => exact ⟨rfl, fun _ _ => rfl, ⟨l, h⟩, fun _ hg => hg⟩
  | none =>
    refine ⟨rfl, fun g hg => if_neg hg, ⟨_, if_pos rfl⟩, fun g hg => ?_⟩
    by_cases e : g = f
    · exact ⟨_, if_pos e⟩
    · simp only [if_neg e]
      exact hg

theorem apply_frame {a b : Nat} {ms : List (Int × Int)} {w w' : World} (h : applyMatches a b ms w = .ok w') :
    w'.kps = w.kps ∧ (∀ g, g ≠ a → g ≠ b → w'.ids g = w.ids g) ∧
      (∃ l, w'.ids a = some l) ∧ ∀ g, (∃ l, w.ids g = some l) → ∃ l, w'.ids g = some l := by
  unfold applyMatches at h
  obtain ⟨k1, i1, s1⟩ := loop_frame ms h
  obtain ⟨k2, i2, s2, t2⟩ := create_frame w a
  obtain ⟨k3, i3, s3, t3⟩ := create_frame (createChannel w a) b
  exact ⟨by rw [k1, k3, k2], fun g ha hb => by rw [i1 g ha hb, i3 g hb, i2 g ha], s1 a (t3 a s2),
    fun g hg => s1 g (t3 g (t2 g hg))⟩

theorem count_calls {S : Scene} {P : Nat → Input} (H : Shows S P) : ∀ n,
    matchCount (calls S P n) ≤ ((List.range n).map S.count).sum
  | 0 => by simp [calls, matchCount]
  | n + 1 => by
    have := count_calls H n
    have h2 : (handOver (trueMatches (P n) (S.counterpart n) (P n).nK)).length ≤ S.count n := by
      unfold handOver trueMatches
      rw [List.length_map, ← H.old n]
      refine le_trans (List.length_filterMap_le _ _) ?_
      rw [List.length_range]
    unfold calls matchCount
    rw [List.range_succ, List.map_append, List.sum_append]
    simp only [List.map_cons, List.map_nil, List.sum_cons, List.sum_nil]
    omega

theorem run {S : Scene} {P : Nat → Input} (H : Shows S P) {w0 : World} (h0 : Start S w0)
    (hc : ∀ f, S.count f < 2 ^ 31) : ∀ n, ((List.range n).map S.count).sum ≤ 2 ^ 31 →
    ∃ w, trackFrames P n w0 = .ok w ∧ Run (calls S P n) w ∧ (∀ f, size w f = S.count f) ∧ ∀ f, ∃ l, w.ids f = some l
  | 0, _ => ⟨w0, rfl, .start h0.untracked h0.next, h0.size, h0.present⟩
  | n + 1, hs => by
    have hs' := hs
    rw [List.range_succ, List.map_append, List.sum_append] at hs'
    obtain ⟨w, e, r, z, pr⟩ := run H h0 hc n (by omega)
    have hm := GyroMatcher.true_matches_partial (H.valid n) (H.nodup n) (H.distinctive n)
    have hcall := (Chain.next_call_iff r ⟨n + 1, n, handOver (trueMatches (P n) (S.counterpart n) (P n).nK)⟩
      (by simp) (le_trans (count_calls H (n + 1)) hs) (by rw [z]; exact hc _) (by rw [z]; exact hc _) (by
        refine ⟨?_, ?_, ?_⟩
        · intro m hmem
          unfold handOver at hmem
          obtain ⟨⟨i, k⟩, hik, rfl⟩ := List.mem_map.1 hmem
          rw [mem_true, counterpart_iff H, H.old] at hik
          simp only [z]
          omega
        · have := true_fst (H.distinctive n)
          unfold handOver
          rw [List.map_map]
          have e : (Prod.fst ∘ fun m : Nat × Nat => ((m.1 : Int), (m.2 : Int))) = (fun x : Nat => (x : Int)) ∘ Prod.fst := rfl
          rw [e, ← List.map_map]
          exact this.map (fun _ _ h => by exact_mod_cast h)
        · have := (true_snd (P n) (S.counterpart n) (P n).nK).1
          unfold handOver
          rw [List.map_map]
          have e : (Prod.snd ∘ fun m : Nat × Nat => ((m.1 : Int), (m.2 : Int))) = (fun x : Nat => (x : Int)) ∘ Prod.snd := rfl
          rw [e, ← List.map_map]
          exact this.map (fun _ _ h => by exact_mod_cast h))).2 (by
        intro i j _ hq _
        exfalso
        obtain ⟨q, hq | hq⟩ := hq
        · have := (matchedBy_iff H).1 hq
          simp only at this
          omega
        · have := (matchedBy_iff H).1 hq
          simp only at this
          omega)
    obtain ⟨w', hw'⟩ := hcall
    refine ⟨w', ?_, .call _ r hw', fun f => by rw [apply_size hw' f, z],
      fun f => (apply_frame hw').2.2.2 f (pr f)⟩
    unfold trackFrames
    rw [e, Outcome.bind_ok]
    obtain ⟨l0, p0⟩ := pr n
    obtain ⟨l1, p1⟩ := pr (n + 1)
    unfold trackFrame checkIds
    rw [p0, Outcome.bind_ok, p1, Outcome.bind_ok, hm, Outcome.bind_ok]
    exact hw'

/-- The relation that the chains of matches amount to. -/
def Same (S : Scene) (P : Nat → Input) (n : Nat) (p q : Keypoint) : Prop :=
  p = q ∨ p.1 ≤ n ∧ q.1 ≤ n ∧ p.2 < S.count p.1 ∧ q.2 < S.count q.1 ∧ S.landmark p.1 p.2 = S.landmark q.1 q.2 ∧
    Followed S P (S.landmark p.1 p.2) (min p.1 q.1) (max p.1 q.1)

theorem linkable_same {S : Scene} {P : Nat → Input} (H : Shows S P) {n : Nat} {p q : Keypoint}
    (h : Linkable (calls S P n) p q) : Same S P n p q := by
  unfold Linkable at h
  induction h with
  | rel p q h =>
    obtain ⟨h1, h2, h3, h4, h5, h6⟩ := (matchedBy_iff H).1 h
    refine Or.inr ⟨by omega, by omega, h3, h4, h5, ?_⟩
    intro f hf hg
    have : f = q.1 := by omega
    subst this
    exact ⟨q.2, p.2, h4, by rw [← h1]; exact h3, h5.symm, by rw [← h1], h6⟩
  | refl p => exact Or.inl rfl
  | symm p q _ ih =>
    rcases ih with rfl | ⟨a, b, c, d, e, f⟩
    · exact Or.inl rfl
    · refine Or.inr ⟨b, a, d, c, e.symm, ?_⟩
      rw [← e, min_comm, max_comm]
      exact f
  | trans p q r _ _ ih1 ih2 =>
    rcases ih1 with rfl | ⟨a, b, c, d, e, f⟩
    · exact ih2
    · rcases ih2 with rfl | ⟨a', b', c', d', e', f'⟩
      · exact Or.inr ⟨a, b, c, d, e, f⟩
      · refine Or.inr ⟨a, b', c, d', e.trans e', ?_⟩
        rw [← e] at f'
        intro h h1 h2
        by_cases hh : min p.1 q.1 ≤ h ∧ h < max p.1 q.1
        · exact f h hh.1 hh.2
        · exact f' h (by omega) (by omega)

theorem followed_linkable {S : Scene} {P : Nat → Input} (H : Shows S P) {n f i : Nat} (hi : i < S.count f) :
    ∀ (d j : Nat), f + d ≤ n → j < S.count (f + d) → S.landmark f i = S.landmark (f + d) j →
      Followed S P (S.landmark f i) f (f + d) → Linkable (calls S P n) (f, i) (f + d, j)
  | 0, j, _, hj, he, _ => by
    have := H.distinct f i j hi hj he
    subst this
    exact .refl _
  | d + 1, j, hn, hj, he, hF => by
    obtain ⟨a, b, ha, hb, la, lb, hs⟩ := hF (f + d) (by omega) (by omega)
    have hbj : b = j := H.distinct (f + d + 1) b j hb hj (lb.trans he)
    subst hbj
    have ih := followed_linkable (n := n) H hi d a (by omega) ha la.symm
      (fun h h1 (h2 : h < f + d) => hF h h1 (show h < f + (d + 1) by omega))
    refine .trans _ (f + d, a) _ ih (.symm _ _ (.rel _ _ ?_))
    rw [matchedBy_iff H]
    exact ⟨rfl, show f + d < n by omega, hj, ha, by simp only; rw [la]; exact he.symm, hs⟩

/-- **C151.** Tracking succeeds from frame to frame.  A keypoint has a track id exactly if its landmark was followed from
the frame before or to the frame after.  Two keypoints have the same id exactly if they show the same landmark and it was
followed all the way from the earlier to the later frame. -/
theorem ids_are_landmarks {S : Scene} {P : Nat → Input} (H : Shows S P) {w0 : World} (h0 : Start S w0)
    (hc : ∀ f, S.count f < 2 ^ 31) (n : Nat) (hn : ((List.range n).map S.count).sum ≤ 2 ^ 31) :
    ∃ w, trackFrames P n w0 = .ok w ∧
      (∀ f i, f ≤ n → i < S.count f → ((∃ v, trackOf w f i = some v) ↔
        (∃ h, h + 1 = f ∧ Handed S P (S.landmark f i) h) ∨ f < n ∧ (P f).success i = true ∧ Handed S P (S.landmark f i) f)) ∧
      ∀ f g i j v, f ≤ g → g ≤ n → i < S.count f → j < S.count g → trackOf w f i = some v →
        (trackOf w g j = some v ↔ S.landmark f i = S.landmark g j ∧ Followed S P (S.landmark f i) f g) := by
  obtain ⟨w, e, r, -⟩ := run H h0 hc n hn
  have hm := le_trans (count_calls H n) hn
  refine ⟨w, e, ?_, ?_⟩
  · intro f i hf hi
    rw [Chain.tracked_iff r hm (f, i)]
    constructor
    · rintro ⟨q, h | h⟩
      · obtain ⟨h1, h2, h3, h4, h5, h6⟩ := (matchedBy_iff H).1 h
        simp only at h1 h2 h3 h4 h5 h6
        refine Or.inl ⟨q.1, h1.symm, q.2, i, h4, by rw [← h1]; exact hi, h5.symm, by rw [← h1], h6⟩
      · obtain ⟨h1, h2, h3, h4, h5, h6⟩ := (matchedBy_iff H).1 h
        simp only at h1 h2 h3 h4 h5 h6
        exact Or.inr ⟨h2, h6, i, q.2, hi, by rw [← h1]; exact h3, rfl, by rw [← h1]; exact h5, h6⟩
    · rintro (⟨h, rfl, a, b, ha, hb, la, lb, hs⟩ | ⟨hfn, hs, a, b, ha, hb, la, lb, -⟩)
      · refine ⟨(h, a), Or.inl ((matchedBy_iff H).2 ⟨rfl, by simp only; omega, hi, ha, la.symm, hs⟩)⟩
      · refine ⟨(f + 1, b), Or.inr ((matchedBy_iff H).2 ⟨rfl, hfn, hb, hi, lb, hs⟩)⟩
  · intro f g i j v hfg hg hi hj hv
    rw [Chain.same_id_iff r hm (f, i) (g, j) v hv]
    constructor
    · intro h
      rcases linkable_same H h with h | ⟨-, -, -, -, h5, h6⟩
      · cases h
        exact ⟨rfl, fun h h1 h2 => by omega⟩
      · simp only at h5 h6
        rw [min_eq_left hfg, max_eq_right hfg] at h6
        exact ⟨h5, h6⟩
    · rintro ⟨h1, h2⟩
      obtain ⟨d, rfl⟩ := Nat.exists_eq_add_of_le hfg
      exact followed_linkable H hi d j hg hj h1 h2

/-- C151: without the channel of track ids in one of the two frames the call ends the process, although the track manager
would create it (track-manager.cc:14-22). -/
theorem channel_needed_refuted (P : Input) (k : Nat) (w : World) (h : w.ids k = none ∨ w.ids (k + 1) = none) :
    trackFrame P k w = .abort := by
  unfold trackFrame checkIds
  rcases h with h | h
  · rw [h]
    rfl
  · rw [h]
    cases w.ids k <;> rfl

/-- Two keypoints in every frame: the first always shows landmark 0, the second always a new one. -/
def demoScene : Scene := { count := fun _ => 2, landmark := fun f i => if i = 0 then 0 else f + 1 }

def demoInput : Input :=
  { bits := 128, small := 10, large := 20, height := 100, n1 := 2, nK := 2,
    dist := fun k i => if k = 0 ∧ i = 0 then 3 else 60,
    pred := fun _ => (50, 50), success := fun _ => true, sorted := [⟨48, 45, 0⟩, ⟨50, 48, 1⟩] }

theorem demo_counterpart (f : Nat) : demoScene.counterpart f = fun k => if k = 0 then some 0 else none := by
  funext k
  have hr : List.range 2 = [0, 1] := rfl
  unfold Scene.counterpart demoScene
  simp only [hr]
  by_cases hk : k = 0
  · subst hk
    simp
  · simp [hk]

theorem demo_shows : Shows demoScene fun _ => demoInput := by
  refine ⟨?_, fun _ => rfl, fun _ => rfl, fun _ => ⟨?_, ?_, ?_, by decide, by decide, by decide, ?_⟩,
    fun _ => by decide, fun f => ?_⟩
  · intro f i j hi hj h
    simp only [demoScene] at hi hj h
    split at h <;> split at h <;> omega
  · unfold GyroMatcher.SortedByY
    simp [demoInput]
    norm_num
  · intro q hq
    simp only [demoInput, List.mem_cons, List.not_mem_nil, or_false] at hq
    rcases hq with rfl | rfl <;> norm_num
  · intro q hq
    simp only [demoInput, List.mem_cons, List.not_mem_nil, or_false] at hq
    rcases hq with rfl | rfl <;> decide
  · intro k i _ _
    simp only [demoInput]
    split_ifs <;> decide
  · rw [demo_counterpart]
    have hcase : ∀ k i : Nat, (if k = 0 then some 0 else none) = some i → k = 0 ∧ i = 0 := by
      intro k i h
      split at h
      · next hk => exact ⟨hk, by cases h; rfl⟩
      · cases h
    refine ⟨?_, ?_, ?_, ?_, ?_⟩
    · intro k k' i _ _ _ _ h h'
      have := hcase k i h
      have := hcase k' i h'
      omega
    · intro k i _ _ h
      obtain ⟨rfl, rfl⟩ := hcase k i h
      decide
    · intro k i j _ _ h hj hne
      obtain ⟨rfl, rfl⟩ := hcase k i h
      revert j
      decide
    · intro k i _ _ h
      obtain ⟨rfl, rfl⟩ := hcase k i h
      refine Or.inl ⟨⟨48, 45, 0⟩, by simp [demoInput], rfl, by norm_num [demoInput], ?_⟩
      constructor <;> norm_num [demoInput, abs_le]
    · intro k j hk _ h hj
      have hk1 : k ≠ 0 := by
        rintro rfl
        cases h
      simp only [demoInput]
      rw [if_neg (by omega)]
      norm_num

theorem demo_start : Start demoScene ⟨fun _ => some [-1, -1], fun _ => 2, 0⟩ where
  present := fun _ => ⟨_, rfl⟩
  untracked := fun _ i => by
    rcases i with _ | _ | i <;> rfl
  next := rfl
  size := fun _ => rfl

/-- Over a thousand frames landmark 0 keeps its id. -/
example : ∃ w v, trackFrames (fun _ => demoInput) 1000 ⟨fun _ => some [-1, -1], fun _ => 2, 0⟩ = .ok w ∧
    trackOf w 3 0 = some v ∧ trackOf w 1000 0 = some v := by
  obtain ⟨w, h1, h2, h3⟩ := ids_are_landmarks demo_shows demo_start (fun _ => by simp [demoScene]) 1000
    (by simp only [demoScene, List.map_const', List.length_range, List.sum_replicate]; norm_num)
  have hh : ∀ h, Handed demoScene (fun _ => demoInput) (demoScene.landmark 3 0) h := fun h =>
    ⟨0, 0, by simp [demoScene], by simp [demoScene], by simp [demoScene], by simp [demoScene], rfl⟩
  obtain ⟨v, hv⟩ := (h2 3 0 (by omega) (by simp [demoScene])).2 (Or.inl ⟨2, rfl, hh 2⟩)
  exact ⟨w, v, h1, hv, (h3 3 1000 0 0 v (by omega) (le_refl _) (by simp [demoScene]) (by simp [demoScene]) hv).2
    ⟨by simp [demoScene], fun h _ _ => hh h⟩⟩

end Verif.TrackManager.Follow
