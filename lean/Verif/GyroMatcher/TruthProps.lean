import Verif.GyroMatcher.SearchProps
import Verif.GyroMatcher.Props

/-!
# C150: keypoints with distinctive descriptors are matched with their counterparts
-/

namespace Verif.GyroMatcher

open Verif (Outcome)

/-! ## Specification -/

/-- The keypoint is near the prediction of keypoint `k`: within the distance `w`, less a pixel horizontally and half a
pixel vertically. -/
def Within (P : Input) (k w : Nat) (q : KP) : Prop :=
  |q.x - (P.pred k).1| ≤ w - 1 ∧ |q.y - (P.pred k).2| ≤ w - 1 / 2

/-- Keypoint `i` of frame k+1 is where keypoint `k` is predicted, not in the last row of the image. -/
def Predicted (P : Input) (k i w : Nat) : Prop :=
  ∃ q ∈ P.sorted, q.idx = i ∧ q.y < (P.height : ℚ) - 1 ∧ Within P k w q

/-- What is known of the true counterparts `truth k` of the keypoints `k` that have a prediction. -/
structure Distinctive (P : Input) (truth : Nat → Option Nat) : Prop where
  /-- No two keypoints have the same counterpart. -/
  injective : ∀ k k' i, k < P.nK → k' < P.nK → P.success k = true → P.success k' = true → truth k = some i →
    truth k' = some i → k = k'
  /-- Less than a fifth of the bits differ from the counterpart. -/
  close : ∀ k i, k < P.nK → P.success k = true → truth k = some i → 5 * P.dist k i < P.bits
  /-- All other descriptors differ in more bits by a quarter. -/
  best : ∀ k i j, k < P.nK → P.success k = true → truth k = some i → j < P.n1 → j ≠ i → 5 * P.dist k i < 4 * P.dist k j
  /-- The counterpart is in the small window, or in the large one and no other descriptor is close. -/
  near : ∀ k i, k < P.nK → P.success k = true → truth k = some i → Predicted P k i P.small ∨
    Predicted P k i P.large ∧ ∀ j, j < P.n1 → j ≠ i → P.bits ≤ 5 * P.dist k j
  /-- Keypoints without counterpart have no close descriptor. -/
  alone : ∀ k j, k < P.nK → P.success k = true → truth k = none → j < P.n1 → P.bits ≤ 5 * P.dist k j

/-- The true matches, in the order of frame k. -/
def trueMatches (P : Input) (truth : Nat → Option Nat) (n : Nat) : List (Nat × Nat) :=
  (List.range n).filterMap fun k => if P.success k = true then (truth k).map fun i => (i, k) else none

/-! ## Proofs -/

theorem within_window {P : Input} (V : Valid P) {k w : Nat} (hw : 0 < w) {q : KP} (hq : q ∈ P.sorted)
    (hl : q.y < (P.height : ℚ) - 1) (h : Within P k w q) : inWindow P k w q = true := by
  obtain ⟨lut, hlut⟩ := initRows_ok (P := P) (fun q hq => lt_of_lt_of_le (by norm_num) (V.rows q hq))
  have hwin := window_exact_partial hlut V.sorted V.height (P.pred k).2 hw
  have hm := window_complete_partial hlut V.sorted V.height hw hwin hq (V.rows q hq) hl h.2
  rw [List.mem_filter, decide_eq_true_eq] at hm
  obtain ⟨hx, -⟩ := h
  rw [abs_le] at hx
  unfold inWindow
  simp only [Bool.and_eq_true, decide_eq_true_eq]
  refine ⟨⟨hm.2, ?_⟩, ?_⟩
  · have : ((trunc ((P.pred k).1 - w) : ℤ) : ℚ) ≤ (P.pred k).1 - w + 1 := by
      unfold trunc
      split
      · have := Int.floor_le ((P.pred k).1 - (w : ℚ)); linarith
      · have := (Int.ceil_lt_add_one ((P.pred k).1 - (w : ℚ))).le; linarith
    linarith
  · have := trunc_lower ((P.pred k).1 + w)
    linarith

theorem qualifies_iff (bits d : Nat) : qualifies bits d = true ↔ 5 * d < bits := by
  unfold qualifies
  rw [decide_eq_true_eq]
  omega

/-- The state of the search while looking for `i`, after the candidates `l`. -/
structure Hunt (P : Input) (k i : Nat) (l : List Nat) (s : Search) : Prop where
  before : i ∉ l → s.best < (P.bits : ℤ) - P.dist k i ∧ 5 * P.dist k i < 4 * s.dBest
  after : i ∈ l → s.it = some i ∧ s.best = (P.bits : ℤ) - P.dist k i ∧ s.dBest = P.dist k i
  second : 5 * P.dist k i < 4 * s.second

theorem Hunt.visit {P : Input} {k i j : Nat} {l : List Nat} {s s' : Search} (h : Hunt P k i l s)
    (hb : ∀ j, j < P.n1 → j ≠ i → 5 * P.dist k i < 4 * P.dist k j) (hj : j ∉ l) (hv : GyroMatcher.visit P k s j = .ok s') :
    Hunt P k i (l ++ [j]) s' := by
  unfold GyroMatcher.visit at hv
  by_cases hn : j < P.n1
  · rw [if_pos hn] at hv
    by_cases hp : 0 < (P.bits : ℤ) - P.dist k j
    · rw [if_pos hp] at hv
      cases hv
      by_cases hi : i ∈ l
      · have hne : j ≠ i := fun e => hj (e ▸ hi)
        obtain ⟨a1, a2, a3⟩ := h.after hi
        have hd := hb j hn hne
        have e : ¬ (P.bits : ℤ) - P.dist k j > s.best := by rw [a2]; omega
        have h2 := h.second
        refine ⟨fun hh => absurd (List.mem_append_left _ hi) hh, fun _ => ?_, ?_⟩
        · unfold update
          rw [if_neg e]
          split <;> exact ⟨a1, a2, a3⟩
        · unfold update
          rw [if_neg e]
          split
          · exact hd
          · exact h2
      · obtain ⟨b1, b2⟩ := h.before hi
        have h2 := h.second
        by_cases hji : j = i
        · subst hji
          refine ⟨fun hh => absurd (by simp) hh, fun _ => ?_, ?_⟩
          · unfold update
            rw [if_pos b1]
            exact ⟨rfl, rfl, rfl⟩
          · unfold update
            rw [if_pos b1]
            exact b2
        · have hd := hb j hn hji
          refine ⟨fun _ => ?_, fun hh => ?_, ?_⟩
          · unfold update
            split
            · exact ⟨by simp only; omega, hd⟩
            · split <;> exact ⟨b1, b2⟩
          · rcases List.mem_append.1 hh with hh | hh
            · exact absurd hh hi
            · exact absurd (List.mem_singleton.1 hh).symm hji
          · unfold update
            split
            · exact b2
            · split
              · exact hd
              · exact h2
    · rw [if_neg hp] at hv
      cases hv
  · rw [if_neg hn] at hv
    cases hv

theorem Hunt.visitAll {P : Input} {k i : Nat} (hb : ∀ j, j < P.n1 → j ≠ i → 5 * P.dist k i < 4 * P.dist k j) :
    ∀ (is l : List Nat) {s s' : Search}, (l ++ is).Nodup → Hunt P k i l s → GyroMatcher.visitAll P k is s = .ok s' →
      Hunt P k i (l ++ is) s'
  | [], l, s, s', _, h, hv => by
    unfold GyroMatcher.visitAll at hv
    cases hv
    simpa using h
  | j :: is, l, s, s', hn, h, hv => by
    unfold GyroMatcher.visitAll at hv
    obtain ⟨s1, h1, h2⟩ := Outcome.bind_eq_ok.1 hv
    have hj : j ∉ l := by
      intro hh
      have := List.nodup_append.1 hn
      exact this.2.2 j hh j (by simp) rfl
    have := Hunt.visitAll hb is (l ++ [j]) (by simpa using hn) (h.visit hb hj h1) h2
    simpa using this

theorem visitAll_indices {P : Input} {k : Nat} : ∀ (is : List Nat) {s s' : Search}, visitAll P k is s = .ok s' →
    ∀ j ∈ is, j < P.n1
  | [], _, _, _ => by simp
  | i :: is, s, s', hv => by
    unfold visitAll at hv
    obtain ⟨s1, h1, h2⟩ := Outcome.bind_eq_ok.1 hv
    intro j hj
    rcases List.mem_cons.1 hj with rfl | hj
    · by_contra hc
      unfold visit at h1
      rw [if_neg hc] at h1
      cases h1
    · exact visitAll_indices is h2 j hj

/-- The windows as lists, and the two parts of the search. -/
theorem search_parts {P : Input} (V : Valid P) {lut : List Nat} (hl : initRows P = .ok lut) {k : Nat} {s : Search}
    (h : search P lut k = .ok s) :
    ∃ s1, visitAll P k ((P.sorted.filter (inWindow P k P.small)).map KP.idx) (Search.init P.bits) = .ok s1 ∧
      (s1.it ≠ none ∧ s = s1 ∨ s1.it = none ∧ visitAll P k ((P.sorted.filter fun q => inWindow P k P.large q &&
        !((P.sorted.filter (inWindow P k P.small)).map KP.idx).contains q.idx).map KP.idx) s1 = .ok s) := by
  unfold search at h
  obtain ⟨c, hc, h⟩ := Outcome.bind_eq_ok.1 h
  obtain ⟨s1, h1, h⟩ := Outcome.bind_eq_ok.1 h
  unfold smallCands at hc
  rw [window_exact_partial hl V.sorted V.height _ V.small, Outcome.bind_ok] at hc
  cases hc
  have e1 := filter_columns P k P.small (fun _ => true)
  simp only [Bool.true_and, Bool.and_true] at e1
  rw [e1] at h1 h
  refine ⟨s1, h1, ?_⟩
  unfold searchLarge at h
  split at h
  · next hit =>
    obtain ⟨c2, hc2, h⟩ := Outcome.bind_eq_ok.1 h
    unfold largeCands at hc2
    rw [window_exact_partial hl V.sorted V.height _ (lt_of_lt_of_le V.small V.large), Outcome.bind_ok] at hc2
    cases hc2
    rw [filter_columns P k P.large] at h
    exact Or.inr ⟨hit, h⟩
  · next hit =>
    cases h
    exact Or.inl ⟨hit, rfl⟩

theorem nodup_filter {P : Input} (hn : (P.sorted.map KP.idx).Nodup) (f : KP → Bool) :
    ((P.sorted.filter f).map KP.idx).Nodup :=
  hn.sublist (List.Sublist.map _ List.filter_sublist)

/-- The search finds the counterpart and the ratio test is passed. -/
theorem search_truth {P : Input} (V : Valid P) (hn : (P.sorted.map KP.idx).Nodup) {truth : Nat → Option Nat}
    (D : Distinctive P truth) {lut : List Nat} (hl : initRows P = .ok lut) {k i : Nat} (hk : k < P.nK)
    (hsuc : P.success k = true) (ht : truth k = some i) {s : Search} (h : search P lut k = .ok s) :
    s.it = some i ∧ ratioTest P.bits s.dBest s.second = .ok true := by
  have hb := fun j => D.best k i j hk hsuc ht
  have hclose := D.close k i hk hsuc ht
  have h0 : Hunt P k i [] (Search.init P.bits) := by
    refine ⟨fun _ => ?_, by simp, ?_⟩
    · unfold Search.init
      simp only
      omega
    · unfold Search.init
      simp only
      omega
  have final : ∀ {l : List Nat} {s : Search}, Hunt P k i l s → i ∈ l →
      s.it = some i ∧ ratioTest P.bits s.dBest s.second = .ok true := by
    intro l s hS hi
    obtain ⟨a1, -, a3⟩ := hS.after hi
    have h2 := hS.second
    refine ⟨a1, ?_⟩
    unfold ratioTest
    rw [a3, if_pos (by omega)]
    split
    · rfl
    · split
      · rfl
      · rw [decide_eq_true h2]
  obtain ⟨s1, e1, hc⟩ := search_parts V hl h
  have g1 := Hunt.visitAll hb _ [] (by simpa using nodup_filter hn _) h0 e1
  rw [List.nil_append] at g1
  by_cases hin : i ∈ (P.sorted.filter (inWindow P k P.small)).map KP.idx
  · rcases hc with ⟨-, rfl⟩ | ⟨hit, -⟩
    · exact final g1 hin
    · rw [(g1.after hin).1] at hit
      cases hit
  · have hlarge : 0 < P.large := lt_of_lt_of_le V.small V.large
    rcases D.near k i hk hsuc ht with ⟨q, hq, hqi, hqy, hw⟩ | ⟨⟨q, hq, hqi, hqy, hw⟩, hfar⟩
    · exact absurd (List.mem_map.2 ⟨q, List.mem_filter.2 ⟨hq, within_window V V.small hq hqy hw⟩, hqi⟩) hin
    · have hseen : Seen P k [] (Search.init P.bits) := ⟨fun _ => ⟨rfl, by simp⟩, by simp [Search.init], rfl⟩
      have g := hseen.visitAll _ _ e1
      rw [List.nil_append] at g
      have hnone : s1.it = none := by
        cases hit : s1.it with
        | none => rfl
        | some j =>
          obtain ⟨-, hqual, a, b, hab, -⟩ := g.some j hit
          have hj : j ∈ (P.sorted.filter (inWindow P k P.small)).map KP.idx := by rw [hab]; simp
          have hjn := visitAll_indices _ e1 j hj
          rw [qualifies_iff] at hqual
          have := hfar j hjn (fun e => hin (e ▸ hj))
          omega
      rcases hc with ⟨hit, -⟩ | ⟨-, e2⟩
      · exact absurd hnone hit
      · have hmem : i ∈ (P.sorted.filter fun q => inWindow P k P.large q &&
            !((P.sorted.filter (inWindow P k P.small)).map KP.idx).contains q.idx).map KP.idx := by
          refine List.mem_map.2 ⟨q, List.mem_filter.2 ⟨hq, ?_⟩, hqi⟩
          rw [within_window V hlarge hq hqy hw, Bool.true_and, hqi]
          simpa using hin
        have hnd : ((P.sorted.filter (inWindow P k P.small)).map KP.idx ++ (P.sorted.filter fun q => inWindow P k P.large q &&
            !((P.sorted.filter (inWindow P k P.small)).map KP.idx).contains q.idx).map KP.idx).Nodup := by
          refine List.nodup_append.2 ⟨nodup_filter hn _, nodup_filter hn _, ?_⟩
          intro a ha b hb' hab
          subst hab
          obtain ⟨q', hq', rfl⟩ := List.mem_map.1 hb'
          have := (List.mem_filter.1 hq').2
          rw [Bool.and_eq_true] at this
          simp only [Bool.not_eq_true', List.contains_eq_mem, decide_eq_false_iff_not] at this
          exact this.2 ha
        exact final (Hunt.visitAll hb _ _ hnd g1 e2) (List.mem_append_right _ hmem)

/-- Nothing is found for a keypoint without counterpart. -/
theorem search_alone {P : Input} (V : Valid P) {truth : Nat → Option Nat} (D : Distinctive P truth) {lut : List Nat}
    (hl : initRows P = .ok lut) {k : Nat} (hk : k < P.nK) (hsuc : P.success k = true) (ht : truth k = none) {s : Search}
    (h : search P lut k = .ok s) : s.it = none := by
  have far : ∀ {l : List Nat} {s : Search}, Seen P k l s → (∀ j ∈ l, j < P.n1) → s.it = none := by
    intro l s g hl
    cases hit : s.it with
    | none => rfl
    | some j =>
      obtain ⟨-, hqual, a, b, hab, -⟩ := g.some j hit
      have := D.alone k j hk hsuc ht (hl j (by rw [hab]; simp))
      rw [qualifies_iff] at hqual
      omega
  obtain ⟨s1, e1, hc⟩ := search_parts V hl h
  have hseen : Seen P k [] (Search.init P.bits) := ⟨fun _ => ⟨rfl, by simp⟩, by simp [Search.init], rfl⟩
  have g1 := hseen.visitAll _ _ e1
  rw [List.nil_append] at g1
  have i1 := visitAll_indices _ e1
  rcases hc with ⟨-, rfl⟩ | ⟨-, e2⟩
  · exact far g1 i1
  · have i2 := visitAll_indices _ e2
    refine far (g1.visitAll _ _ e2) fun j hj => ?_
    rcases List.mem_append.1 hj with hj | hj
    · exact i1 j hj
    · exact i2 j hj

/-- The state after the first `n` keypoints. -/
structure TInv (P : Input) (truth : Nat → Option Nat) (n : Nat) (st : St) : Prop where
  pairs : st.pairs = trueMatches P truth n
  inferior : st.inferior = []
  cand : ∀ k, n ≤ k → st.cand k = none
  free : ∀ i, (∀ k, k < n → P.success k = true → truth k ≠ some i) →
    st.matched i = false ∧ st.iter i = none ∧ st.score i = none

theorem trueMatches_succ (P : Input) (truth : Nat → Option Nat) (n : Nat) :
    trueMatches P truth (n + 1) = trueMatches P truth n ++
      (if P.success n = true then (truth n).map fun i => (i, n) else none).toList := by
  unfold trueMatches
  rw [List.range_succ, List.filterMap_append]
  congr 1

theorem TInv.matchKeypoint {P : Input} (V : Valid P) (hn : (P.sorted.map KP.idx).Nodup) {truth : Nat → Option Nat}
    (D : Distinctive P truth) {lut : List Nat} (hl : initRows P = .ok lut) {n : Nat} {st : St} (h : TInv P truth n st)
    (hk : n < P.nK) : ∃ st', GyroMatcher.matchKeypoint P lut n st = .ok st' ∧ TInv P truth (n + 1) st' := by
  unfold GyroMatcher.matchKeypoint
  have weaken : (∀ i, P.success n = true → truth n ≠ some i) → TInv P truth (n + 1) st := by
    intro hnone
    refine ⟨?_, h.inferior, fun k hk => h.cand k (by omega), fun i hi => h.free i fun k hk => hi k (by omega)⟩
    rw [trueMatches_succ, h.pairs]
    have : (if P.success n = true then (truth n).map fun i => (i, n) else none) = none := by
      split
      · next hs =>
        cases ht : truth n with
        | none => rfl
        | some i => exact absurd ht (hnone i hs)
      · rfl
    rw [this]
    simp
  by_cases hsuc : P.success n = true
  · rw [if_pos hsuc]
    obtain ⟨s, hs, -⟩ := search_ok V hl hk
    rw [hs, Outcome.bind_ok]
    cases ht : truth n with
    | none =>
      have hit := search_alone V D hl hk hsuc ht hs
      unfold decideMatch
      rw [hit]
      exact ⟨st, rfl, weaken fun i _ => by rw [ht]; simp⟩
    | some i =>
      obtain ⟨hit, hr⟩ := search_truth V hn D hl hk hsuc ht hs
      obtain ⟨f1, f2, f3⟩ := h.free i fun k hkn hks hkt => by
        have := D.injective k n i (by omega) hk hks hsuc hkt ht
        omega
      have hlen : st.pairs.length < P.nK := by
        rw [h.pairs]
        unfold trueMatches
        refine lt_of_le_of_lt (List.length_filterMap_le _ _) ?_
        rw [List.length_range]
        exact hk
      unfold decideMatch
      rw [hit]
      simp only
      rw [hr, Outcome.bind_ok, if_pos rfl]
      unfold place
      rw [h.cand n (le_refl _)]
      simp only
      rw [f1]
      simp only [Bool.false_eq_true, if_false]
      unfold emplace
      simp only
      rw [if_pos hlen, if_pos ⟨f2, f3⟩]
      refine ⟨_, rfl, ?_, h.inferior, ?_, ?_⟩
      · simp only
        rw [trueMatches_succ, h.pairs, if_pos hsuc, ht]
        rfl
      · intro k hk'
        simp only
        unfold upd
        rw [if_neg (by omega)]
        exact h.cand k (by omega)
      · intro j hj
        have hne : j ≠ i := by
          rintro rfl
          exact hj n (by omega) hsuc ht
        obtain ⟨g1, g2, g3⟩ := h.free j fun k hk => hj k (by omega)
        simp only
        unfold upd
        rw [if_neg hne, if_neg hne, if_neg hne]
        exact ⟨g1, g2, g3⟩
  · rw [if_neg hsuc]
    exact ⟨st, rfl, weaken fun i hs => absurd hs hsuc⟩

theorem TInv.matchAll {P : Input} (V : Valid P) (hn : (P.sorted.map KP.idx).Nodup) {truth : Nat → Option Nat}
    (D : Distinctive P truth) {lut : List Nat} (hl : initRows P = .ok lut) : ∀ (m n : Nat) {st : St}, n + m ≤ P.nK →
    TInv P truth n st → ∃ st', GyroMatcher.matchAll P lut (List.range' n m) st = .ok st' ∧ TInv P truth (n + m) st'
  | 0, n, st, _, h => ⟨st, rfl, h⟩
  | m + 1, n, st, hm, h => by
    obtain ⟨st1, e1, h1⟩ := h.matchKeypoint V hn D hl (by omega)
    obtain ⟨st2, e2, h2⟩ := TInv.matchAll V hn D hl m (n + 1) (by omega) h1
    refine ⟨st2, ?_, by rw [show n + (m + 1) = n + 1 + m by omega]; exact h2⟩
    rw [List.range'_succ]
    unfold GyroMatcher.matchAll
    rw [e1, Outcome.bind_ok, e2]

/-- **C150.** If every keypoint of frame k with a prediction either has a counterpart that is where it is predicted and
whose descriptor is distinctive, or has no counterpart and no descriptor close to its own, and no two have the same
counterpart, then the matcher returns exactly the true matches.  Partial: counterparts in the
last row of the image are left out, see `last_row_lost_refuted`. -/
theorem true_matches_partial {P : Input} (V : Valid P) (hn : (P.sorted.map KP.idx).Nodup) {truth : Nat → Option Nat}
    (D : Distinctive P truth) : runMatch P = .ok (trueMatches P truth P.nK) := by
  obtain ⟨lut, hl⟩ := initRows_ok (P := P) (fun q hq => lt_of_lt_of_le (by norm_num) (V.rows q hq))
  unfold runMatch
  rw [hl, Outcome.bind_ok]
  by_cases h0 : P.nK = 0 ∨ P.n1 = 0
  · rw [if_pos h0]
    congr 1
    symm
    unfold trueMatches
    rcases h0 with h0 | h0
    · rw [h0]; rfl
    · rw [List.filterMap_eq_nil_iff]
      intro k hk
      rw [List.mem_range] at hk
      split
      · next hs =>
        cases ht : truth k with
        | none => rfl
        | some i =>
          have : ∃ q ∈ P.sorted, q.idx = i := by
            rcases D.near k i hk hs ht with ⟨q, hq, e, -⟩ | ⟨⟨q, hq, e, -⟩, -⟩ <;> exact ⟨q, hq, e⟩
          obtain ⟨q, hq, -⟩ := this
          have := V.idx q hq
          omega
      · rfl
  · rw [if_neg h0]
    have hi : TInv P truth 0 St.init := ⟨rfl, rfl, fun _ _ => rfl, fun _ _ => ⟨rfl, rfl, rfl⟩⟩
    obtain ⟨st, e, h⟩ := TInv.matchAll V hn D hl P.nK 0 (by omega) hi
    rw [Nat.zero_add] at h
    rw [List.range_eq_range', e, Outcome.bind_ok]
    have hr : rounds P 3 st st.matched = .ok { st with inferior := [] } := by
      unfold rounds matchInferior
      rw [h.inferior]
      unfold infAll
      rw [Outcome.bind_ok]
      simp only [h.inferior, List.filter_nil]
      rw [Outcome.bind_ok]
      simp
    rw [hr, Outcome.bind_ok]
    simp only
    rw [h.pairs]

/-- Four keypoints in frame k: 0 belongs to 1, 1 belongs to 0, which is only in the large window, 2 has no counterpart
and 3 no prediction. -/
def demoTruth : Input :=
  { bits := 128, small := 10, large := 20, height := 100, n1 := 3, nK := 4,
    dist := fun k i => if k = 0 ∧ i = 1 then 5 else if k = 0 ∧ i = 2 then 7 else if k = 1 ∧ i = 0 then 3 else
      if k = 3 then 0 else 60,
    pred := fun _ => (50, 50), success := fun k => decide (k ≠ 3),
    sorted := [⟨48, 35, 0⟩, ⟨50, 48, 1⟩, ⟨52, 51, 2⟩] }

def truthOf : Nat → Option Nat
  | 0 => some 1
  | 1 => some 0
  | _ => none

theorem demoTruth_valid : Valid demoTruth := by
  refine ⟨?_, ?_, ?_, by decide, by decide, by decide, ?_⟩
  · unfold SortedByY
    simp [demoTruth]
    norm_num
  · intro q hq
    simp only [demoTruth, List.mem_cons, List.not_mem_nil, or_false] at hq
    rcases hq with rfl | rfl | rfl <;> norm_num
  · intro q hq
    simp only [demoTruth, List.mem_cons, List.not_mem_nil, or_false] at hq
    rcases hq with rfl | rfl | rfl <;> decide
  · intro k i _ _
    simp only [demoTruth]
    split_ifs <;> decide

theorem demoTruth_distinctive : Distinctive demoTruth truthOf := by
  have hcase : ∀ k i, truthOf k = some i → k = 0 ∧ i = 1 ∨ k = 1 ∧ i = 0 := by
    intro k i h
    match k with
    | 0 => cases h; exact Or.inl ⟨rfl, rfl⟩
    | 1 => cases h; exact Or.inr ⟨rfl, rfl⟩
    | k + 2 => cases h
  refine ⟨?_, ?_, ?_, ?_, ?_⟩
  · intro k k' i _ _ _ _ h h'
    have := hcase k i h
    have := hcase k' i h'
    omega
  · intro k i _ _ h
    rcases hcase k i h with ⟨rfl, rfl⟩ | ⟨rfl, rfl⟩ <;> decide
  · intro k i j _ _ h hj hne
    rcases hcase k i h with ⟨rfl, rfl⟩ | ⟨rfl, rfl⟩ <;> revert j <;> decide
  · intro k i _ _ h
    rcases hcase k i h with ⟨rfl, rfl⟩ | ⟨rfl, rfl⟩
    · refine Or.inl ⟨⟨50, 48, 1⟩, by simp [demoTruth], rfl, by norm_num [demoTruth], ?_⟩
      constructor <;> norm_num [demoTruth, abs_le]
    · refine Or.inr ⟨⟨⟨48, 35, 0⟩, by simp [demoTruth], rfl, by norm_num [demoTruth], ?_⟩, by decide⟩
      constructor <;> norm_num [demoTruth, abs_le]
  · intro k j hk hs h hj
    have hk2 : k = 2 := by
      match k with
      | 0 => cases h
      | 1 => cases h
      | 2 => rfl
      | 3 => simp [demoTruth] at hs
      | k + 4 => simp [demoTruth] at hk
    subst hk2
    revert j
    decide

example : runMatch demoTruth = .ok [(1, 0), (0, 1)] :=
  true_matches_partial demoTruth_valid (by decide) demoTruth_distinctive

/-- A keypoint in the last row of the image is not matched, although the prediction is exact, the descriptors are equal
and there is no other keypoint. -/
theorem last_row_lost_refuted : ∃ P : Input, Valid P ∧ P.nK = 1 ∧ P.success 0 = true ∧ P.sorted = [⟨50, 99, 0⟩] ∧
    P.pred 0 = (50, 99) ∧ P.height = 100 ∧ P.dist 0 0 = 0 ∧ runMatch P = .ok [] := by
  refine ⟨{ bits := 128, small := 10, large := 20, height := 100, n1 := 1, nK := 1, dist := fun _ _ => 0,
            pred := fun _ => (50, 99), success := fun _ => true, sorted := [⟨50, 99, 0⟩] },
    ⟨?_, ?_, ?_, by decide, by decide, by decide, fun _ _ _ _ => (by decide : 0 < 128)⟩, rfl, rfl, rfl, rfl, rfl, rfl, by decide +kernel⟩
  · unfold SortedByY
    simp
  · simp
  · simp

end Verif.GyroMatcher
