import Verif.GyroTracker.Loop
import Verif.GyroTracker.Props
import Verif.TrackManager.FollowProps

/-!
# C155: tracking with optical flow goes on for ever
-/

namespace Verif.GyroTracker.Loop

open Verif (Outcome)
open Verif.TrackManager (World applyMatches applyLoop applyOne link trackOf size vec put newId createChannel Unique Issued)
open Verif.TrackManager.Follow (handOver apply_frame)

/-! ## Specification -/

/-- The descriptor matcher matches one-to-one (C39), the sorts sort, the optical flow answers for every point, and the
extractor returns some of the keypoints. -/
structure Good (E : Env) : Prop where
  matcher : ∀ k nK, OneToOne (E.detected (k + 1)) nK (E.matcher k nK)
  desc : ∀ l, (E.sortDesc l).Perm l ∧ (E.sortDesc l).Pairwise (fun a b => b.2 ≤ a.2)
  asc : ∀ l, (E.sortAsc l).Perm l ∧ (E.sortAsc l).Pairwise (fun a b => a.2 ≤ b.2)
  flow : ∀ k l, (E.flow k l).length = l.length
  extract : ∀ k n, (E.extract k n).Nodup ∧ ∀ c ∈ E.extract k n, c < n

/-- What is promised of the matches `M` returned for the frames k and k+1, given the final frames `w`. -/
structure Tracked (E : Env) (w : World) (k : Nat) (M : List (Nat × Nat)) : Prop where
  /-- Every keypoint is in one match at most, those added by optical flow among them. -/
  oneToOne : OneToOne (size w (k + 1)) (size w k) M
  /-- The matches of the descriptor matcher come first, and each of the others is for a keypoint that was added. -/
  kinds : ∃ added, M = E.matcher k (size w k) ++ added ∧ size w (k + 1) = E.detected (k + 1) + added.length ∧
    added.map Prod.fst = List.range' (E.detected (k + 1)) added.length
  /-- Matched keypoints have the same track id. -/
  sameId : ∀ i j, (i, j) ∈ M → ∃ v, trackOf w (k + 1) i = some v ∧ trackOf w k j = some v

/-! ## The invariant -/

/-- How many keypoints there can be in the frames after the first up to frame `n`. -/
def total (E : Env) (n : Nat) : Nat := ((List.range n).map fun k => 2 * E.detected (k + 1)).sum

theorem total_succ (E : Env) (n : Nat) : total E (n + 1) = total E n + 2 * E.detected (n + 1) := by
  unfold total
  rw [List.range_succ, List.map_append, List.sum_append]
  simp

/-- What holds when frame `n` has been tracked. -/
structure Inv (S : Settings) (E : Env) (n : Nat) (s : State) : Prop where
  ids : ∃ l, s.world.ids n = some l ∧ (n = 0 ∧ s.tracker = St.new ∨ ∃ hist m, Runs S s.tracker hist m l.length)
  small : ∀ f, size s.world f ≤ 2 * E.detected f
  later : ∀ f, n < f → s.world.ids f = some (List.replicate (E.detected f) (-1))
  issued : Issued s.world
  unique : ∀ f, Unique s.world f
  next : s.world.next ≤ total E n
  length : s.returned.length = n
  tracked : ∀ k M, s.returned[k]? = some M → Tracked E s.world k M

theorem valid_of_good {E : Env} (G : Good E) (k : Nat) (ids : List Int) : Valid (callOf E k ids) :=
  ⟨G.matcher k ids.length, G.desc, G.asc, G.flow k, G.extract k⟩

theorem trackOf_untracked {w : World} {f n : Nat} (h : w.ids f = some (List.replicate n (-1))) (i : Nat) :
    trackOf w f i = none := by
  unfold trackOf
  rw [h]
  cases e : (List.replicate n (-1 : Int))[i]? with
  | none => simp only [e]
  | some v =>
    rw [List.eq_of_mem_replicate (List.mem_of_getElem? e)] at e
    simp only [e]
    rfl

theorem extend_ids (w : World) (f m n : Nat) :
    (extend w f m (List.replicate n (-1))).ids f = some (List.replicate (n + m) (-1)) := by
  unfold extend
  simp only [if_true]
  rw [List.replicate_append_replicate]

theorem extend_other (w : World) {f g m : Nat} (l : List Int) (h : g ≠ f) : (extend w f m l).ids g = w.ids g := if_neg h

theorem trackOf_extend (w : World) {f m n : Nat} (h : w.ids f = some (List.replicate n (-1))) (g i : Nat) :
    trackOf (extend w f m (List.replicate n (-1))) g i = trackOf w g i := by
  by_cases e : g = f
  · rw [e, trackOf_untracked (extend_ids w f m n), trackOf_untracked h]
  · unfold trackOf
    rw [extend_other w _ e]

theorem size_extend (w : World) {f g m : Nat} (l : List Int) (h : g ≠ f) : size (extend w f m l) g = size w g := by
  unfold size
  rw [extend_other w l h]
  cases w.ids g with
  | some _ => rfl
  | none => exact if_neg h

theorem validMatches_of {n1 nK : Nat} {ms : List (Nat × Nat)} (h : OneToOne n1 nK ms) :
    TrackManager.ValidMatches n1 nK (handOver ms) := by
  unfold handOver
  refine ⟨?_, ?_, ?_⟩
  · intro m hm
    obtain ⟨m', hm', rfl⟩ := List.mem_map.1 hm
    have := h.1 m' hm'
    simp only
    omega
  · rw [List.map_map]
    have : (ms.map (Prod.fst ∘ fun m : Nat × Nat => ((m.1 : Int), (m.2 : Int)))) = (ms.map Prod.fst).map Int.ofNat := by
      rw [List.map_map]
      rfl
    rw [this]
    exact h.2.1.map Int.ofNat_injective
  · rw [List.map_map]
    have : (ms.map (Prod.snd ∘ fun m : Nat × Nat => ((m.1 : Int), (m.2 : Int)))) = (ms.map Prod.snd).map Int.ofNat := by
      rw [List.map_map]
      rfl
    rw [this]
    exact h.2.2.map Int.ofNat_injective

theorem oneToOne_length {n1 nK : Nat} {ms : List (Nat × Nat)} (h : OneToOne n1 nK ms) : ms.length ≤ n1 := by
  have hs : ms.map Prod.fst ⊆ List.range n1 := by
    intro i hi
    obtain ⟨m, hm, rfl⟩ := List.mem_map.1 hi
    exact List.mem_range.2 (h.1 m hm).1
  have := (List.subperm_of_subset h.2.1 hs).length_le
  simpa using this

theorem inv_start (S : Settings) (E : Env) : Inv S E 0 (start E) := by
  have hn : ∀ f i, trackOf (start E).world f i = none := fun f i => trackOf_untracked (n := E.detected f) rfl i
  refine ⟨⟨List.replicate (E.detected 0) (-1), rfl, Or.inl ⟨rfl, rfl⟩⟩, ?_, fun _ _ => rfl, ?_, ?_, Nat.zero_le _, rfl, ?_⟩
  · intro f
    show (List.replicate (E.detected f) (-1 : Int)).length ≤ _
    rw [List.length_replicate]
    omega
  · intro f i v h
    rw [hn] at h
    cases h
  · intro f i k v h
    rw [hn] at h
    cases h
  · intro k M h
    cases h

theorem inv_step {S : Settings} {E : Env} {n : Nat} {s : State} (hr : 0 < S.ratio) (hr1 : S.ratio ≤ 1) (G : Good E)
    (I : Inv S E n s) (hs : ∀ f, 2 * E.detected f < 2 ^ 31) (ht : total E (n + 1) ≤ 2 ^ 31) :
    ∃ s', step S E n s = .ok s' ∧ Inv S E (n + 1) s' := by
  obtain ⟨l, hl, htr⟩ := I.ids
  have V := valid_of_good G n l
  have key : ∃ st' r, track S (callOf E n l) s.tracker = .ok (st', r) ∧
      (∃ sK hist, GoodCall S (callOf E n l) sK hist r) ∧ ∃ hist m, Runs S st' hist m r.size := by
    rcases htr with ⟨-, e⟩ | ⟨hist, m, R⟩
    · obtain ⟨st', r, h, g⟩ := first_call hr V
      rw [e]
      exact ⟨st', r, h, ⟨_, _, g⟩, _, _, Runs.first V h⟩
    · obtain ⟨st', r, h, g⟩ := every_call hr R V rfl
      exact ⟨st', r, h, ⟨_, _, g⟩, _, _, Runs.next R V rfl h⟩
  obtain ⟨st', r, ht', ⟨sK, hist, g⟩, hist', m', R'⟩ := key
  obtain ⟨added, e1, e2, glk⟩ := g.lk
  have hcand : added.length ≤ E.detected (n + 1) := by
    have h1 : added.length ≤ r.cand.length := by
      have hsub : added.map Prod.snd ⊆ r.cand := by
        intro i hi
        obtain ⟨m, hm, rfl⟩ := List.mem_map.1 hi
        obtain ⟨q, hq⟩ := List.getElem?_of_mem hm
        exact (glk.from_cand q m hq).1
      have := (List.subperm_of_subset glk.snd hsub).length_le
      simpa using this
    have h2 := g.cand.bound hr.le
    have h3 : ((r.cand.length : Nat) : Rat) ≤ (E.detected (n + 1) : Nat) := by
      refine h2.trans ?_
      have : (0 : Rat) ≤ ((E.detected (n + 1) : Nat) : Rat) := Nat.cast_nonneg _
      have := mul_le_mul_of_nonneg_left hr1 this
      rw [mul_one] at this
      exact this
    have h4 : r.cand.length ≤ E.detected (n + 1) := by exact_mod_cast h3
    omega
  have hsz : r.size = E.detected (n + 1) + added.length := e2
  have hone : OneToOne r.size l.length r.matchList := g.oneToOne
  have hlen := oneToOne_length hone
  have hnew : s.world.ids (n + 1) = some (List.replicate (E.detected (n + 1)) (-1)) := I.later (n + 1) (by omega)
  have szA : size (extend s.world (n + 1) (r.size - E.detected (n + 1)) (List.replicate (E.detected (n + 1)) (-1))) (n + 1) = r.size := by
    unfold size
    rw [extend_ids]
    simp only [List.length_replicate]
    omega
  have szB : size (extend s.world (n + 1) (r.size - E.detected (n + 1)) (List.replicate (E.detected (n + 1)) (-1))) n = l.length := by
    rw [size_extend _ _ (by omega)]
    unfold size
    rw [hl]
  have tE : ∀ g i, trackOf (extend s.world (n + 1) (r.size - E.detected (n + 1)) (List.replicate (E.detected (n + 1)) (-1))) g i = trackOf s.world g i := trackOf_extend s.world hnew
  have hB : l.length ≤ 2 * E.detected n := by
    have := I.small n
    unfold size at this
    rw [hl] at this
    exact this
  have hsA := hs (n + 1)
  have hsB := hs n
  have hnx := I.next
  rw [total_succ] at ht
  have hmc : (extend s.world (n + 1) (r.size - E.detected (n + 1)) (List.replicate (E.detected (n + 1)) (-1))).next + (handOver r.matchList).length ≤ 2 ^ 31 := by
    show s.world.next + (handOver r.matchList).length ≤ 2 ^ 31
    unfold handOver
    rw [List.length_map]
    omega
  have hfresh : ∀ i, trackOf (extend s.world (n + 1) (r.size - E.detected (n + 1)) (List.replicate (E.detected (n + 1)) (-1))) (n + 1) i = none := fun i => trackOf_untracked (extend_ids _ _ _ _) i
  obtain ⟨w', hw'⟩ := (TrackManager.apply_succeeds_iff (a := n + 1) (b := n) (by omega) hmc (by rw [szA]; omega)
    (by rw [szB]; omega)).2 ⟨by rw [szA, szB]; exact validMatches_of hone, fun i j _ x y hx => by
      rw [hfresh] at hx; cases hx⟩
  obtain ⟨a1, a2, a3⟩ := TrackManager.apply_effect_partial hw' hmc
  obtain ⟨-, f2, ⟨lw, f3⟩, -⟩ := apply_frame hw'
  have fz := TrackManager.Follow.apply_size hw'
  have keepSize : ∀ f, f ≠ n + 1 → size w' f = size s.world f := by
    intro f hf
    rw [fz f, size_extend _ _ hf]
  have newSize : size w' (n + 1) = r.size := by rw [fz, szA]
  have le6 := (TrackManager.loop_effect (handOver r.matchList) _ _ _ w' hw' (by
    rw [TrackManager.next_create, TrackManager.next_create]; exact hmc)).2.2.2
  have hIss : Issued w' := le6.1 (by
    intro f i v
    rw [TrackManager.trackOf_create, TrackManager.trackOf_create, TrackManager.next_create, TrackManager.next_create, tE]
    exact I.issued f i v)
  have hNext : w'.next ≤ s.world.next + r.matchList.length := by
    have := le6.2.2
    rw [TrackManager.next_create, TrackManager.next_create] at this
    have e : (handOver r.matchList).length = r.matchList.length := by unfold handOver; rw [List.length_map]
    rw [e] at this
    exact this
  have hUni : ∀ f, Unique w' f := by
    have hab := (TrackManager.unique_kept_iff (a := n + 1) (b := n) (by omega) hw' hmc (fun f i v => by rw [tE]; exact I.issued f i v)
      (fun i k v h => by rw [hfresh] at h; cases h) (fun i k v => by rw [tE, tE]; exact I.unique n i k v)).2 (by
        intro m _ v
        refine ⟨fun h => ?_, fun _ _ k h => ?_⟩
        · rw [hfresh] at h; cases h
        · rw [hfresh] at h; cases h)
    intro f
    by_cases hf1 : f = n + 1
    · rw [hf1]; exact hab.1
    · by_cases hf2 : f = n
      · rw [hf2]; exact hab.2
      · intro i k v
        have e : ∀ i, trackOf w' f i = trackOf s.world f i := by
          intro i
          unfold trackOf
          rw [f2 f hf1 hf2, extend_other _ _ hf1]
        rw [e, e]
        exact I.unique f i k v
  refine ⟨⟨st', w', s.returned ++ [r.matchList]⟩, ?_, ?_⟩
  · unfold step readIds
    rw [hl, Outcome.bind_ok, hnew, Outcome.bind_ok, ht', Outcome.bind_ok, hw', Outcome.bind_ok]
  · refine ⟨⟨lw, f3, Or.inr ⟨hist', m', ?_⟩⟩, ?_, ?_, hIss, hUni, ?_, ?_, ?_⟩
    · have : lw.length = r.size := by
        rw [← newSize]
        unfold size
        rw [f3]
      rw [this]
      exact R'
    · intro f
      by_cases hf : f = n + 1
      · subst hf
        show size w' (n + 1) ≤ _
        rw [newSize]
        omega
      · show size w' f ≤ _
        rw [keepSize f hf]
        exact I.small f
    · intro f hf
      show w'.ids f = _
      rw [f2 f (by omega) (by omega), extend_other _ _ (by omega)]
      exact I.later f (by omega)
    · show w'.next ≤ total E (n + 1)
      rw [total_succ]
      omega
    · rw [List.length_append, I.length]
      rfl
    · intro k M hM
      rcases Nat.lt_or_ge k s.returned.length with hk | hk
      · rw [List.getElem?_append_left hk] at hM
        have hk' : k < n := I.length ▸ hk
        have T := I.tracked k M hM
        have s1 : size w' (k + 1) = size s.world (k + 1) := keepSize _ (by omega)
        have s2 : size w' k = size s.world k := keepSize _ (by omega)
        refine ⟨by rw [s1, s2]; exact T.oneToOne, by rw [s1, s2]; exact T.kinds, ?_⟩
        intro i j hij
        obtain ⟨v, h1, h2⟩ := T.sameId i j hij
        exact ⟨v, a3 _ _ _ ((tE _ _).trans h1), a3 _ _ _ ((tE _ _).trans h2)⟩
      · rw [List.getElem?_append_right hk] at hM
        have hk' : k = n := by
          have hlt : k - s.returned.length < [r.matchList].length := (List.getElem?_eq_some_iff.1 hM).1
          rw [List.length_singleton] at hlt
          have := I.length
          omega
        subst hk'
        rw [I.length, Nat.sub_self] at hM
        cases hM
        have s2 : size w' k = l.length := by
          rw [keepSize k (by omega)]
          unfold size
          rw [hl]
        refine ⟨by rw [newSize, s2]; exact hone, ⟨added, ?_, by rw [newSize]; exact hsz, glk.fst⟩, ?_⟩
        · rw [s2]
          exact e1
        · intro i j hij
          obtain ⟨_, _, v, _, h1, h2⟩ := a1 (i : Int) (j : Int) (List.mem_map.2 ⟨(i, j), hij, rfl⟩)
          exact ⟨v, h1, h2⟩

/-! ## C155 -/

/-- C155: with the track ids of all frames set to -1 as the detector leaves them, tracking with optical flow and handing the matches to the track manager
goes on for any number of frames: no check fails, within every frame track ids are distinct, the matches of all pairs of
frames are one-to-one, and matched keypoints, those found by optical flow among them, have the same id to the end. -/
theorem tracking_goes_on {S : Settings} {E : Env} (hr : 0 < S.ratio) (hr1 : S.ratio ≤ 1) (G : Good E) (n : Nat)
    (hs : ∀ f, 2 * E.detected f < 2 ^ 31) (ht : ((List.range n).map fun k => 2 * E.detected (k + 1)).sum ≤ 2 ^ 31) :
    ∃ s, loop S E n (start E) = .ok s ∧ s.returned.length = n ∧ (∀ f, Unique s.world f) ∧
      (∀ f, size s.world f ≤ 2 * E.detected f) ∧ ∀ k M, s.returned[k]? = some M → Tracked E s.world k M := by
  have main : ∀ m, total E m ≤ 2 ^ 31 → ∃ s, loop S E m (start E) = .ok s ∧ Inv S E m s := by
    intro m
    induction m with
    | zero => exact fun _ => ⟨_, rfl, inv_start S E⟩
    | succ m ih =>
      intro h
      obtain ⟨s, e, I⟩ := ih (by rw [total_succ] at h; omega)
      obtain ⟨s', e', I'⟩ := inv_step hr hr1 G I hs h
      exact ⟨s', by unfold loop; rw [e, Outcome.bind_ok, e'], I'⟩
  obtain ⟨s, e, I⟩ := main n ht
  exact ⟨s, e, I.length, I.unique, I.small, I.tracked⟩

/-- C155: both frames need the channel of track ids: without it in one of them the call ends the process, although the track
manager would create it (track-manager.cc:14-22). -/
theorem channel_needed_refuted (S : Settings) (E : Env) (k : Nat) (s : State)
    (h : s.world.ids k = none ∨ s.world.ids (k + 1) = none) : step S E k s = .abort := by
  unfold step readIds
  rcases h with h | h
  · rw [h]
    rfl
  · rw [h]
    cases s.world.ids k <;> rfl

/-- Frames of two keypoints, the first of which is matched with the first; the optical flow finds the others at (50, 50). -/
def demoEnv : Env where
  detected := fun _ => 2
  matcher := fun _ nK => if 0 < nK then [(0, 0)] else []
  success := fun _ _ => true
  sortDesc := fun l => l.mergeSort fun a b => decide (b.2 ≤ a.2)
  sortAsc := fun l => l.mergeSort fun a b => decide (a.2 ≤ b.2)
  flow := fun _ l => l.map fun _ => (true, 50, 50)
  extract := fun _ n => List.range n

theorem demo_good : Good demoEnv where
  matcher := by
    intro k nK
    show OneToOne 2 nK (if 0 < nK then [(0, 0)] else [])
    split
    · exact ⟨by simpa using ‹0 < nK›, by simp, by simp⟩
    · exact ⟨by simp, by simp, by simp⟩
  desc := by
    intro l
    refine ⟨List.mergeSort_perm _ _, ?_⟩
    have := List.pairwise_mergeSort (le := fun a b : Nat × Nat => decide (b.2 ≤ a.2))
      (by intro a b c; simp only [decide_eq_true_eq]; omega) (by intro a b; simp only [Bool.or_eq_true, decide_eq_true_eq]; omega) l
    exact this.imp fun h => of_decide_eq_true h
  asc := by
    intro l
    refine ⟨List.mergeSort_perm _ _, ?_⟩
    have := List.pairwise_mergeSort (le := fun a b : Nat × Nat => decide (a.2 ≤ b.2))
      (by intro a b c; simp only [decide_eq_true_eq]; omega) (by intro a b; simp only [Bool.or_eq_true, decide_eq_true_eq]; omega) l
    exact this.imp fun h => of_decide_eq_true h
  flow := fun _ l => by simp [demoEnv]
  extract := fun _ n => ⟨List.nodup_range, fun c hc => List.mem_range.1 hc⟩

example : ∃ s, loop ⟨1 / 2, 10, 1, 10, 100, 100⟩ demoEnv 1000 (start demoEnv) = .ok s ∧ s.returned.length = 1000 ∧
    (∀ f, Unique s.world f) := by
  obtain ⟨s, h1, h2, h3, _⟩ := tracking_goes_on (S := ⟨1 / 2, 10, 1, 10, 100, 100⟩) (by norm_num) (by norm_num) demo_good 1000
    (fun f => by show 2 * 2 < 2 ^ 31; norm_num) (by
      have : ((List.range 1000).map fun k => 2 * demoEnv.detected (k + 1)) = List.replicate 1000 4 := by
        rw [List.eq_replicate_iff]
        refine ⟨by simp, fun b hb => ?_⟩
        obtain ⟨k, _, rfl⟩ := List.mem_map.1 hb
        rfl
      rw [this, List.sum_replicate]
      show 1000 * 4 ≤ 2 ^ 31
      norm_num)
  exact ⟨s, h1, h2, h3⟩

end Verif.GyroTracker.Loop
