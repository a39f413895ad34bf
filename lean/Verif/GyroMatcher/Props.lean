import Verif.GyroMatcher.RowProps
import Verif.GyroMatcher.RatioProps
import Mathlib.Data.List.Nodup
import Mathlib.Data.List.NodupEquivFin

/-!
# Gyro matcher: C39
-/

namespace Verif.GyroMatcher

open Verif (Outcome)

/-! ## Specification -/

/-- Keypoint `i` of frame k+1 is in the (large) search window around the prediction for keypoint `k` of frame k. -/
def Near (P : Input) (k i : Nat) : Prop :=
  ∃ q ∈ P.sorted, q.idx = i ∧ |q.x - (P.pred k).1| ≤ P.large + 1 ∧ |q.y - (P.pred k).2| ≤ P.large + 1 / 2

/-- What holds for a match of keypoint `i` of frame k+1 and keypoint `k` of frame k: valid indices, a successful
prediction, more than 4/5 of the bits agree, and the keypoint is in the window. -/
structure GoodMatch (P : Input) (i k : Nat) : Prop where
  hi : i < P.n1
  hk : k < P.nK
  pred : P.success k = true
  score : (P.bits * 4 / 5 : Nat) < (P.bits : ℤ) - P.dist k i
  near : Near P k i

/-- Inputs: the sorted keypoints are those of frame k+1, inside of the image; the search distances pass the checks of
the constructor (gyro-two-frame-matcher.cc:52-54); no two descriptors differ in all bits (see `complement_aborts_refuted`). -/
structure Valid (P : Input) : Prop where
  sorted : SortedByY P.sorted
  rows : ∀ q ∈ P.sorted, 0 ≤ q.y
  idx : ∀ q ∈ P.sorted, q.idx < P.n1
  height : 0 < P.height
  small : 0 < P.small
  large : P.small ≤ P.large
  dist : ∀ k i, k < P.nK → i < P.n1 → P.dist k i < P.bits

/-! ## The search -/

/-- A recorded candidate. -/
structure CandOk (P : Input) (k : Nat) (c : Nat × ℤ) : Prop where
  hi : c.1 < P.n1
  score : c.2 = (P.bits : ℤ) - P.dist k c.1
  near : Near P k c.1

/-- What the search guarantees. -/
structure SInv (P : Input) (k : Nat) (s : Search) : Prop where
  cands : ∀ c ∈ s.cands, CandOk P k c
  unfound : s.it = none → s.best = (P.bits * 4 / 5 : Nat) ∧ s.dBest = P.bits + 1
  found : ∀ i, s.it = some i → CandOk P k (i, s.best) ∧ ((P.bits * 4 / 5 : Nat) : ℤ) < s.best ∧
    s.best = (P.bits : ℤ) - s.dBest ∧ s.dBest ≤ s.second

theorem SInv.visit {P : Input} {k i : Nat} {s : Search} (h : SInv P k s) (hi : i < P.n1) (hd : P.dist k i < P.bits)
    (hn : Near P k i) : ∃ s', visit P k s i = .ok s' ∧ SInv P k s' := by
  unfold GyroMatcher.visit
  rw [if_pos hi, if_pos (by omega)]
  refine ⟨_, rfl, ?_⟩
  have hc : CandOk P k (i, (P.bits : ℤ) - P.dist k i) := ⟨hi, rfl, hn⟩
  have hcs : ∀ c ∈ s.cands ++ [(i, (P.bits : ℤ) - P.dist k i)], CandOk P k c := by
    intro c hcm
    rcases List.mem_append.1 hcm with h1 | h1
    · exact h.cands c h1
    · simp at h1
      subst h1
      exact hc
  unfold update
  cases hit : s.it with
  | none =>
    obtain ⟨b1, b2⟩ := h.unfound hit
    by_cases h1 : (P.bits : ℤ) - P.dist k i > s.best
    · rw [if_pos h1]
      refine ⟨hcs, fun e => by simp at e, ?_⟩
      intro j hj
      simp at hj
      subst hj
      exact ⟨hc, by show _ < (P.bits : ℤ) - P.dist k i; omega, rfl, by show P.dist k i ≤ s.dBest; omega⟩
    · rw [if_neg h1]
      split
      · exact ⟨hcs, fun _ => ⟨b1, b2⟩, fun j hj => absurd hj (by simp [hit])⟩
      · exact ⟨hcs, fun _ => ⟨b1, b2⟩, fun j hj => absurd hj (by simp [hit])⟩
  | some j =>
    obtain ⟨c1, c2, c3, c4⟩ := h.found j hit
    by_cases h1 : (P.bits : ℤ) - P.dist k i > s.best
    · rw [if_pos h1]
      refine ⟨hcs, fun e => by simp at e, ?_⟩
      intro j' hj
      simp at hj
      subst hj
      exact ⟨hc, by show _ < (P.bits : ℤ) - P.dist k i; omega, rfl, by show P.dist k i ≤ s.dBest; omega⟩
    · rw [if_neg h1]
      split
      · refine ⟨hcs, fun e => absurd e (by simp [hit]), ?_⟩
        intro j' hj
        simp [hit] at hj
        subst hj
        exact ⟨c1, c2, c3, by show s.dBest ≤ P.dist k i; omega⟩
      · refine ⟨hcs, fun e => absurd e (by simp [hit]), ?_⟩
        intro j' hj
        simp [hit] at hj
        subst hj
        exact ⟨c1, c2, c3, c4⟩

theorem SInv.visitAll {P : Input} {k : Nat} : ∀ (is : List Nat) {s : Search}, SInv P k s →
    (∀ i ∈ is, i < P.n1 ∧ P.dist k i < P.bits ∧ Near P k i) →
    ∃ s', GyroMatcher.visitAll P k is s = .ok s' ∧ SInv P k s'
  | [], s, h, _ => ⟨s, rfl, h⟩
  | i :: is, s, h, hi => by
    obtain ⟨h1, h2, h3⟩ := hi i List.mem_cons_self
    obtain ⟨s1, e1, g1⟩ := h.visit h1 h2 h3
    obtain ⟨s2, e2, g2⟩ := SInv.visitAll is g1 (fun j hj => hi j (List.mem_cons_of_mem _ hj))
    refine ⟨s2, ?_, g2⟩
    unfold GyroMatcher.visitAll
    rw [e1, Outcome.bind_ok]
    exact e2

theorem columns_sound {px : ℚ} {w : Nat} {q : KP} (h : inColumns px w q = true) : |q.x - px| ≤ w + 1 := by
  unfold inColumns at h
  simp only [Bool.not_eq_true', Bool.or_eq_false_iff, decide_eq_false_iff_not, not_lt, gt_iff_lt] at h
  obtain ⟨h1, h2⟩ := h
  have l := trunc_lower (px - w)
  have u : (trunc (px + w) : ℚ) ≤ px + w + 1 := by
    unfold trunc
    split
    · have := Int.floor_le (px + w)
      linarith
    · have := Int.ceil_lt_add_one (px + w)
      linarith
  rw [abs_le]
  constructor <;> linarith

theorem cands_near {P : Input} (V : Valid P) {lut : List Nat} (hl : initRows P = .ok lut) {k : Nat} (hk : k < P.nK)
    {w : Nat} (hw : 0 < w) (hw' : w ≤ P.large) :
    ∃ l, window P lut (P.pred k).2 w = .ok l ∧
      ∀ q ∈ l, inColumns (P.pred k).1 w q = true → q.idx < P.n1 ∧ P.dist k q.idx < P.bits ∧ Near P k q.idx := by
  refine ⟨_, window_exact_partial hl V.sorted V.height _ hw, ?_⟩
  intro q hq hc
  obtain ⟨hm, hy⟩ := window_sound hl V.sorted V.height hw (window_exact_partial hl V.sorted V.height _ hw) q hq
  have hx := columns_sound hc
  have hy := hy (V.rows q hm)
  have hww : (w : ℚ) ≤ P.large := by exact_mod_cast hw'
  exact ⟨V.idx q hm, V.dist k _ hk (V.idx q hm), q, hm, rfl, by linarith, by linarith⟩

theorem search_ok {P : Input} (V : Valid P) {lut : List Nat} (hl : initRows P = .ok lut) {k : Nat} (hk : k < P.nK) :
    ∃ s, search P lut k = .ok s ∧ SInv P k s := by
  obtain ⟨l1, e1, h1⟩ := cands_near V hl hk V.small V.large
  obtain ⟨l2, e2, h2⟩ := cands_near V hl hk (lt_of_lt_of_le V.small V.large) (Nat.le_refl _)
  unfold search smallCands
  rw [e1, Outcome.bind_ok, Outcome.bind_ok]
  have h0 : SInv P k (Search.init P.bits) := ⟨by simp [Search.init], fun _ => ⟨rfl, rfl⟩, by simp [Search.init]⟩
  obtain ⟨s1, g1, i1⟩ := h0.visitAll ((l1.filter (inColumns (P.pred k).1 P.small)).map KP.idx) (by
    intro i hi
    obtain ⟨q, hq, rfl⟩ := List.mem_map.1 hi
    rw [List.mem_filter] at hq
    exact h1 q hq.1 hq.2)
  rw [g1, Outcome.bind_ok]
  unfold searchLarge
  split
  · unfold largeCands
    rw [e2, Outcome.bind_ok, Outcome.bind_ok]
    exact i1.visitAll _ (by
      intro i hi
      obtain ⟨q, hq, rfl⟩ := List.mem_map.1 hi
      rw [List.mem_filter, Bool.and_eq_true] at hq
      exact h2 q hq.1 hq.2.2)
  · exact ⟨s1, rfl, i1⟩

/-! ## The matches -/

/-- The match list and the two maps agree. -/
structure Core (P : Input) (st : St) : Prop where
  good : ∀ m ∈ st.pairs, GoodMatch P m.1 m.2
  nodupA : (st.pairs.map Prod.fst).Nodup
  nodupB : (st.pairs.map Prod.snd).Nodup
  iter : ∀ i p, st.iter i = some p → ∃ k, st.pairs[p]? = some (i, k)
  iterSome : ∀ i, i ∈ st.pairs.map Prod.fst → st.iter i ≠ none
  scoreNone : ∀ i, i ∉ st.pairs.map Prod.fst → st.score i = none
  scoreVal : ∀ m ∈ st.pairs, st.score m.1 = some ((P.bits : ℤ) - P.dist m.2 m.1)
  cand : ∀ k l, st.cand k = some l → P.success k = true ∧ k < P.nK ∧ ∀ c ∈ l, CandOk P k c

theorem mem_set_iff {x a : Nat} : ∀ {l : List Nat} {p : Nat}, l.Nodup → l[p]? = some a → x ∉ l →
    ∀ y, y ∈ l.set p x ↔ y = x ∨ (y ∈ l ∧ y ≠ a)
  | [], p, _, h, _, _ => by simp at h
  | b :: l, 0, hn, h, hx, y => by
    simp only [List.getElem?_cons_zero, Option.some.injEq] at h
    subst h
    rw [List.nodup_cons] at hn
    simp only [List.set_cons_zero, List.mem_cons]
    constructor
    · rintro (h | h)
      · exact Or.inl h
      · exact Or.inr ⟨Or.inr h, fun e => hn.1 (e ▸ h)⟩
    · rintro (h | ⟨h | h, h'⟩)
      · exact Or.inl h
      · exact absurd h h'
      · exact Or.inr h
  | b :: l, p + 1, hn, h, hx, y => by
    rw [List.nodup_cons] at hn
    rw [List.getElem?_cons_succ] at h
    simp only [List.mem_cons, not_or] at hx
    have := mem_set_iff hn.2 h hx.2 y
    simp only [List.set_cons_succ, List.mem_cons, this]
    have hab : b ≠ a := by
      rintro rfl
      exact hn.1 (List.mem_of_getElem? h)
    constructor
    · rintro (h | h | h)
      · exact Or.inr ⟨Or.inl h, fun e => hab (h ▸ e)⟩
      · exact Or.inl h
      · exact Or.inr ⟨Or.inr h.1, h.2⟩
    · rintro (h | ⟨h | h, h'⟩)
      · exact Or.inr (Or.inl h)
      · exact Or.inl h
      · exact Or.inr (Or.inr ⟨h, h'⟩)

theorem map_set {α β : Type} (f : α → β) (l : List α) (p : Nat) (a : α) : (l.set p a).map f = (l.map f).set p (f a) := by
  rw [List.map_set]

/-- Giving an existing match to another keypoint of frame k. -/
theorem Core.replace {P : Input} {st : St} (h : Core P st) {i k : Nat} (hi : i ∈ st.pairs.map Prod.fst)
    (hk : k ∉ st.pairs.map Prod.snd) (hg : GoodMatch P i k) :
    ∃ (k0 : Nat) (st' : St), replaceMatch i k ((P.bits : ℤ) - P.dist k i) st = .ok (k0, st') ∧ Core P st' ∧
      st'.pairs.map Prod.fst = st.pairs.map Prod.fst ∧ k0 ∈ st.pairs.map Prod.snd ∧
      (∀ y, y ∈ st'.pairs.map Prod.snd ↔ y = k ∨ (y ∈ st.pairs.map Prod.snd ∧ y ≠ k0)) ∧
      st'.matched = st.matched ∧ st'.inferior = st.inferior ∧ st'.cand = st.cand := by
  cases hp : st.iter i with
  | none => exact absurd hp (h.iterSome i hi)
  | some p =>
    obtain ⟨k0, hp0⟩ := h.iter i p hp
    unfold replaceMatch
    rw [hp]
    simp only
    rw [hp0]
    simp only
    have hA : (st.pairs.map Prod.fst)[p]? = some i := by rw [List.getElem?_map, hp0]; rfl
    have hB : (st.pairs.map Prod.snd)[p]? = some k0 := by rw [List.getElem?_map, hp0]; rfl
    have eA : (st.pairs.set p (i, k)).map Prod.fst = st.pairs.map Prod.fst := by
      rw [map_set]
      apply List.ext_getElem?
      intro j
      rw [List.getElem?_set]
      split
      · next hj =>
        subst hj
        split
        · exact hA.symm
        · next hlt => rw [List.getElem?_eq_none (by omega)]
      · rfl
    have eB := mem_set_iff h.nodupB hB hk
    have hk0 : k0 ∈ st.pairs.map Prod.snd := List.mem_of_getElem? hB
    refine ⟨k0, _, rfl, ⟨?_, ?_, ?_, ?_, ?_, ?_, ?_, h.cand⟩, eA, hk0, ?_, rfl, rfl, rfl⟩
    · intro m hm
      rcases List.mem_or_eq_of_mem_set hm with hm | rfl
      · exact h.good m hm
      · exact hg
    · show ((st.pairs.set p (i, k)).map Prod.fst).Nodup
      rw [eA]; exact h.nodupA
    · show ((st.pairs.set p (i, k)).map Prod.snd).Nodup
      rw [map_set]
      exact h.nodupB.set hk
    · intro j q hq
      obtain ⟨k', hk'⟩ := h.iter j q hq
      show ∃ k', (st.pairs.set p (i, k))[q]? = some (j, k')
      by_cases hpq : p = q
      · subst hpq
        rw [hp0] at hk'
        cases hk'
        have hlt : p < st.pairs.length := (List.getElem?_eq_some_iff.1 hp0).1
        exact ⟨k, List.getElem?_set_self hlt⟩
      · exact ⟨k', by rw [List.getElem?_set_ne hpq]; exact hk'⟩
    · show ∀ j, j ∈ (st.pairs.set p (i, k)).map Prod.fst → _
      rw [eA]; exact h.iterSome
    · show ∀ j, j ∉ (st.pairs.set p (i, k)).map Prod.fst → upd st.score i _ j = none
      rw [eA]
      intro j hj
      unfold upd
      have hne : j ≠ i := fun e => hj (by rw [e]; exact hi)
      rw [if_neg hne]
      exact h.scoreNone j hj
    · intro m hm
      show upd st.score i _ m.1 = _
      unfold upd
      have hmi := List.mem_iff_getElem?.1 hm
      obtain ⟨q, hq⟩ := hmi
      change (st.pairs.set p (i, k))[q]? = some m at hq
      by_cases hpq : p = q
      · subst hpq
        have hlt : p < st.pairs.length := (List.getElem?_eq_some_iff.1 hp0).1
        rw [List.getElem?_set_self hlt] at hq
        cases hq
        rw [if_pos rfl]
      · rw [List.getElem?_set_ne hpq] at hq
        have hne : m.1 ≠ i := by
          intro e
          have h1 : (st.pairs.map Prod.fst)[q]? = some i := by rw [List.getElem?_map, hq, ← e]; rfl
          exact hpq ((List.getElem?_inj (List.getElem?_eq_some_iff.1 hA).1 h.nodupA).1 (hA.trans h1.symm))
        rw [if_neg hne]
        exact h.scoreVal m (List.mem_of_getElem? hq)
    · intro y
      show y ∈ (st.pairs.set p (i, k)).map Prod.snd ↔ _
      rw [map_set]
      exact eB y

theorem nodup_bound {n : Nat} : ∀ {l : List Nat}, l.Nodup → (∀ x ∈ l, x < n) → l.length ≤ n := by
  intro l hn hl
  have := (List.nodup_range (n := n)).length_le_of_subset (l₂ := List.range n) (fun x hx => hx)
  have h2 : l.length ≤ (List.range n).length :=
    (List.subperm_of_subset hn (fun x hx => List.mem_range.2 (hl x hx))).length_le
  simpa using h2

/-- Appending a match. -/
theorem Core.append {P : Input} {st : St} (h : Core P st) {i k : Nat} (hi : i ∉ st.pairs.map Prod.fst)
    (hk : k ∉ st.pairs.map Prod.snd) (hg : GoodMatch P i k) :
    ∃ st', emplace P i k ((P.bits : ℤ) - P.dist k i) st = .ok st' ∧ Core P st' ∧
      st'.pairs = st.pairs ++ [(i, k)] ∧ st'.matched = st.matched ∧ st'.inferior = st.inferior ∧
      st'.cand = st.cand := by
  have hlen : st.pairs.length < P.nK := by
    have h1 : (k :: st.pairs.map Prod.snd).Nodup := List.nodup_cons.2 ⟨hk, h.nodupB⟩
    have h2 := nodup_bound (n := P.nK) h1 (by
      intro x hx
      rcases List.mem_cons.1 hx with rfl | hx
      · exact hg.hk
      · obtain ⟨m, hm, rfl⟩ := List.mem_map.1 hx
        exact (h.good m hm).hk)
    simp at h2
    omega
  have hin : st.iter i = none := by
    cases hp : st.iter i with
    | none => rfl
    | some p =>
      obtain ⟨k', hk'⟩ := h.iter i p hp
      exact absurd (List.mem_map.2 ⟨_, List.mem_of_getElem? hk', rfl⟩) hi
  unfold emplace
  rw [if_pos hlen, if_pos ⟨hin, h.scoreNone i hi⟩]
  refine ⟨_, rfl, ⟨?_, ?_, ?_, ?_, ?_, ?_, ?_, h.cand⟩, rfl, rfl, rfl, rfl⟩
  · intro m hm
    rcases List.mem_append.1 hm with hm | hm
    · exact h.good m hm
    · simp at hm; subst hm; exact hg
  · show ((st.pairs ++ [(i, k)]).map Prod.fst).Nodup
    rw [List.map_append, List.map_singleton, List.nodup_append]
    refine ⟨h.nodupA, by simp, ?_⟩
    intro a ha b hb e
    simp at hb
    rw [e, hb] at ha
    exact hi ha
  · show ((st.pairs ++ [(i, k)]).map Prod.snd).Nodup
    rw [List.map_append, List.map_singleton, List.nodup_append]
    refine ⟨h.nodupB, by simp, ?_⟩
    intro a ha b hb e
    simp at hb
    rw [e, hb] at ha
    exact hk ha
  · intro j q hq
    change upd st.iter i (some st.pairs.length) j = some q at hq
    show ∃ k', (st.pairs ++ [(i, k)])[q]? = some (j, k')
    unfold upd at hq
    split at hq
    · next e =>
      cases hq
      subst e
      exact ⟨k, by simp⟩
    · obtain ⟨k', hk'⟩ := h.iter j q hq
      exact ⟨k', by rw [List.getElem?_append_left (List.getElem?_eq_some_iff.1 hk').1]; exact hk'⟩
  · intro j hj
    show upd st.iter i (some st.pairs.length) j ≠ none
    unfold upd
    split
    · simp
    · next e =>
      apply h.iterSome
      change j ∈ (st.pairs ++ [(i, k)]).map Prod.fst at hj
      rw [List.map_append, List.mem_append] at hj
      rcases hj with hj | hj
      · exact hj
      · simp at hj; exact absurd hj e
  · intro j hj
    change j ∉ (st.pairs ++ [(i, k)]).map Prod.fst at hj
    show upd st.score i _ j = none
    rw [List.map_append, List.mem_append, not_or] at hj
    unfold upd
    rw [if_neg (fun e => hj.2 (by simp [e]))]
    exact h.scoreNone j hj.1
  · intro m hm
    show upd st.score i _ m.1 = _
    unfold upd
    rcases List.mem_append.1 hm with hm | hm
    · have hne : m.1 ≠ i := fun e => hi (by rw [← e]; exact List.mem_map_of_mem hm)
      rw [if_neg hne]
      exact h.scoreVal m hm
    · simp at hm
      subst hm
      rw [if_pos rfl]

/-! ## First stage -/

/-- The state between two calls of `matchKeypoint`; keypoints from `K` on have not been looked at. -/
structure MInv (P : Input) (K : Nat) (st : St) : Prop where
  core : Core P st
  matched : ∀ i, st.matched i = true ↔ i ∈ st.pairs.map Prod.fst
  infNodup : st.inferior.Nodup
  infFree : ∀ k ∈ st.inferior, k ∉ st.pairs.map Prod.snd
  infLt : ∀ k ∈ st.inferior, k < K ∧ k < P.nK ∧ P.success k = true
  pairLt : ∀ k ∈ st.pairs.map Prod.snd, k < K
  candLt : ∀ k, st.cand k ≠ none → k < K

theorem Core.withCand {P : Input} {st : St} (h : Core P st) {k : Nat} {l : List (Nat × ℤ)} (hs : P.success k = true)
    (hk : k < P.nK) (hl : ∀ c ∈ l, CandOk P k c) (mt : Nat → Bool) (inf : List Nat) :
    Core P { st with cand := upd st.cand k (some l), matched := mt, inferior := inf } := by
  refine ⟨h.good, h.nodupA, h.nodupB, h.iter, h.iterSome, h.scoreNone, h.scoreVal, ?_⟩
  intro k' l' hk'
  change upd st.cand k (some l) k' = some l' at hk'
  unfold upd at hk'
  split at hk'
  · next e =>
    cases hk'
    subst e
    exact ⟨hs, hk, hl⟩
  · exact h.cand k' l' hk'

theorem Core.flags {P : Input} {st : St} (h : Core P st) (mt : Nat → Bool) (inf : List Nat) :
    Core P { st with matched := mt, inferior := inf } :=
  ⟨h.good, h.nodupA, h.nodupB, h.iter, h.iterSome, h.scoreNone, h.scoreVal, h.cand⟩

theorem MInv.mono {P : Input} {K : Nat} {st : St} (h : MInv P K st) : MInv P (K + 1) st :=
  ⟨h.core, h.matched, h.infNodup, h.infFree, fun k hk => ⟨by have := (h.infLt k hk).1; omega, (h.infLt k hk).2⟩,
    fun k hk => by have := h.pairLt k hk; omega, fun k hk => by have := h.candLt k hk; omega⟩

theorem MInv.place {P : Input} {k : Nat} {st : St} (h : MInv P k st) {i : Nat} {l : List (Nat × ℤ)}
    (hg : GoodMatch P i k) (hl : ∀ c ∈ l, CandOk P k c) :
    ∃ st', place P k i ((P.bits : ℤ) - P.dist k i) l st = .ok st' ∧ MInv P (k + 1) st' := by
  have hcn : st.cand k = none := by
    by_contra hc
    have := h.candLt k hc
    omega
  have hkB : k ∉ st.pairs.map Prod.snd := fun hm => by have := h.pairLt k hm; omega
  have hkI : k ∉ st.inferior := fun hm => by have := (h.infLt k hm).1; omega
  have candLt' : ∀ k', upd st.cand k (some l) k' ≠ none → k' < k + 1 := by
    intro k' hk'
    unfold upd at hk'
    split at hk'
    · omega
    · have := h.candLt k' hk'; omega
  unfold GyroMatcher.place
  rw [hcn]
  simp only
  by_cases hm : st.matched i = true
  · rw [if_pos hm]
    by_cases hsc : (P.bits : ℤ) - P.dist k i > scoreAt st i
    · rw [if_pos hsc]
      have hc' := h.core.withCand hg.pred hg.hk hl st.matched st.inferior
      obtain ⟨k0, st', e, c, eA, hk0, eB, eM, eI, eC⟩ := hc'.replace ((h.matched i).1 hm) hkB hg
      rw [e, Outcome.bind_ok]
      refine ⟨_, rfl, ⟨c.flags st'.matched _, ?_, ?_, ?_, ?_, ?_, ?_⟩⟩
      · intro j
        show st'.matched j = true ↔ j ∈ st'.pairs.map Prod.fst
        rw [eM, eA]
        exact h.matched j
      · show (st'.inferior ++ [k0]).Nodup
        rw [eI, List.nodup_append]
        refine ⟨h.infNodup, by simp, ?_⟩
        intro a ha b hb e'
        simp at hb
        rw [e', hb] at ha
        exact h.infFree k0 ha hk0
      · intro y hy
        show y ∉ st'.pairs.map Prod.snd
        change y ∈ st'.inferior ++ [k0] at hy
        rw [eI, List.mem_append] at hy
        rw [eB]
        rcases hy with hy | hy
        · rintro (rfl | ⟨h1, _⟩)
          · exact hkI hy
          · exact h.infFree y hy h1
        · simp at hy
          subst hy
          rintro (rfl | ⟨_, h2⟩)
          · exact hkB hk0
          · exact h2 rfl
      · intro y hy
        change y ∈ st'.inferior ++ [k0] at hy
        rw [eI, List.mem_append] at hy
        rcases hy with hy | hy
        · obtain ⟨a, b⟩ := h.infLt y hy
          exact ⟨by omega, b⟩
        · simp at hy
          subst hy
          obtain ⟨m, hmm, rfl⟩ := List.mem_map.1 hk0
          have g := h.core.good m hmm
          exact ⟨by have := h.pairLt m.2 hk0; omega, g.hk, g.pred⟩
      · intro y hy
        change y ∈ st'.pairs.map Prod.snd at hy
        rw [eB] at hy
        rcases hy with rfl | ⟨hy, _⟩
        · omega
        · have := h.pairLt y hy; omega
      · show ∀ k', st'.cand k' ≠ none → _
        rw [eC]
        exact candLt'
    · rw [if_neg hsc]
      refine ⟨_, rfl, ⟨h.core.withCand hg.pred hg.hk hl st.matched _, h.matched, ?_, ?_, ?_, ?_, candLt'⟩⟩
      · show (st.inferior ++ [k]).Nodup
        rw [List.nodup_append]
        refine ⟨h.infNodup, by simp, ?_⟩
        intro a ha b hb e'
        simp at hb
        rw [e', hb] at ha
        exact hkI ha
      · intro y hy
        change y ∈ st.inferior ++ [k] at hy
        rcases List.mem_append.1 hy with hy | hy
        · exact h.infFree y hy
        · simp at hy; subst hy; exact hkB
      · intro y hy
        change y ∈ st.inferior ++ [k] at hy
        rcases List.mem_append.1 hy with hy | hy
        · obtain ⟨a, b⟩ := h.infLt y hy
          exact ⟨by omega, b⟩
        · simp at hy; subst hy; exact ⟨by omega, hg.hk, hg.pred⟩
      · intro y hy
        have := h.pairLt y hy
        omega
  · rw [if_neg hm]
    have hiA : i ∉ st.pairs.map Prod.fst := fun hx => hm ((h.matched i).2 hx)
    have hc' := h.core.withCand hg.pred hg.hk hl (upd st.matched i true) st.inferior
    obtain ⟨st', e, c, eP, eM, eI, eC⟩ := hc'.append hiA hkB hg
    refine ⟨st', e, ⟨c, ?_, ?_, ?_, ?_, ?_, ?_⟩⟩
    · intro j
      rw [eM, eP, List.map_append, List.mem_append]
      show upd st.matched i true j = true ↔ _
      unfold upd
      split
      · next e => simp [e]
      · next e =>
        rw [h.matched j]
        simp [e]
    · rw [eI]; exact h.infNodup
    · intro y hy
      rw [eI] at hy
      rw [eP, List.map_append, List.mem_append]
      rintro (h1 | h1)
      · exact h.infFree y hy h1
      · simp at h1
        subst h1
        exact hkI hy
    · intro y hy
      rw [eI] at hy
      obtain ⟨a, b⟩ := h.infLt y hy
      exact ⟨by omega, b⟩
    · intro y hy
      rw [eP, List.map_append, List.mem_append] at hy
      rcases hy with hy | hy
      · have := h.pairLt y hy; omega
      · simp at hy; omega
    · rw [eC]; exact candLt'

theorem MInv.matchKeypoint {P : Input} (V : Valid P) {lut : List Nat} (hl : initRows P = .ok lut) {k : Nat}
    (hk : k < P.nK) {st : St} (h : MInv P k st) :
    ∃ st', GyroMatcher.matchKeypoint P lut k st = .ok st' ∧ MInv P (k + 1) st' := by
  unfold GyroMatcher.matchKeypoint
  by_cases hs : P.success k = true
  · rw [if_pos hs]
    obtain ⟨s, e, i⟩ := search_ok V hl hk
    rw [e, Outcome.bind_ok]
    unfold decideMatch
    cases hit : s.it with
    | none => exact ⟨st, rfl, h.mono⟩
    | some j =>
      obtain ⟨c1, c2, c3, c4⟩ := i.found j hit
      simp only
      have : ∃ b, ratioTest P.bits s.dBest s.second = .ok b := by
        unfold ratioTest
        rw [if_pos c4]
        exact ⟨_, rfl⟩
      obtain ⟨b, hb⟩ := this
      rw [hb, Outcome.bind_ok]
      cases b with
      | false => exact ⟨st, rfl, h.mono⟩
      | true =>
        have hsc := c1.score
        simp only at hsc
        rw [hsc] at c2 ⊢
        exact h.place ⟨c1.hi, hk, hs, c2, c1.near⟩ i.cands
  · rw [if_neg hs]
    exact ⟨st, rfl, h.mono⟩

theorem MInv.matchAll {P : Input} (V : Valid P) {lut : List Nat} (hl : initRows P = .ok lut) : ∀ (n k : Nat) {st : St},
    k + n ≤ P.nK → MInv P k st →
    ∃ st', GyroMatcher.matchAll P lut (List.range' k n) st = .ok st' ∧ MInv P (k + n) st'
  | 0, k, st, _, h => ⟨st, rfl, h⟩
  | n + 1, k, st, hn, h => by
    obtain ⟨s1, e1, h1⟩ := h.matchKeypoint V hl (by omega)
    obtain ⟨s2, e2, h2⟩ := MInv.matchAll V hl n (k + 1) (by omega) h1
    refine ⟨s2, ?_, by rw [show k + (n + 1) = k + 1 + n by omega]; exact h2⟩
    rw [List.range'_succ]
    unfold GyroMatcher.matchAll
    rw [e1, Outcome.bind_ok]
    exact e2

/-! ## Second stage -/

theorem pick_spec {bits : Nat} {matched : Nat → Bool} : ∀ (l : List (Nat × ℤ)) (b : Option (Nat × ℤ)) (c : Nat × ℤ),
    pick bits matched l b = some c → (∀ d, b = some d → strict bits d.2 = true) →
    (c ∈ l ∨ b = some c) ∧ strict bits c.2 = true
  | [], b, c, h, hb => by
    unfold pick at h
    exact ⟨Or.inr h, hb c h⟩
  | d :: l, b, c, h, hb => by
    have lift : ∀ b', (pick bits matched l b' = some c) → (b' = b ∨ (b' = some d ∧ strict bits d.2 = true)) →
        (c ∈ d :: l ∨ b = some c) ∧ strict bits c.2 = true := by
      intro b' h' hb'
      obtain ⟨h1, h2⟩ := pick_spec l b' c h' (by
        intro x hx
        rcases hb' with rfl | ⟨rfl, hd⟩
        · exact hb x hx
        · cases hx; exact hd)
      refine ⟨?_, h2⟩
      rcases h1 with h1 | h1
      · exact Or.inl (List.mem_cons_of_mem _ h1)
      · rcases hb' with rfl | ⟨rfl, _⟩
        · exact Or.inr h1
        · cases h1
          exact Or.inl List.mem_cons_self
    unfold pick at h
    split at h
    · exact lift b h (Or.inl rfl)
    · split at h
      · split at h
        · next hs => exact lift _ h (Or.inr ⟨rfl, hs⟩)
        · exact lift _ h (Or.inl rfl)
      · next e =>
        split at h
        · next hgt =>
          refine lift _ h (Or.inr ⟨rfl, ?_⟩)
          have := hb e rfl
          unfold strict at this ⊢
          rw [decide_eq_true_eq] at this ⊢
          omega
        · exact lift _ h (Or.inl rfl)

/-- The state inside of `matchInferiorMatches`; `done` has been processed. -/
structure IInv (P : Input) (L done : List Nat) (s : Inf) : Prop where
  core : Core P s.st
  isInf : ∀ i, s.isInf i = true ↔ i ∈ s.st.pairs.map Prod.fst
  inferior : s.st.inferior = L
  erase : ∀ k ∈ L, (k ∈ s.st.pairs.map Prod.snd ↔ k ∈ s.erase)
  eraseDone : ∀ k ∈ s.erase, k ∈ done

theorem IInv.infOne {P : Input} {L done : List Nat} {s : Inf} (h : IInv P L done s) {k : Nat} (hk : k ∈ L)
    (hkd : k ∉ done) : ∃ s', GyroMatcher.infOne P k s = .ok s' ∧ IInv P L (done ++ [k]) s' := by
  have hnoErase : k ∉ s.erase := fun hm => hkd (h.eraseDone k hm)
  have hkB : k ∉ s.st.pairs.map Prod.snd := fun hm => hnoErase ((h.erase k hk).1 hm)
  have more : ∀ x ∈ s.erase, x ∈ done ++ [k] := fun x hx => List.mem_append_left _ (h.eraseDone x hx)
  unfold GyroMatcher.infOne
  cases hp : pick P.bits s.st.matched ((s.st.cand k).getD []) none with
  | none => exact ⟨s, rfl, ⟨h.core, h.isInf, h.inferior, h.erase, more⟩⟩
  | some c =>
    obtain ⟨hc, hs⟩ := pick_spec _ _ _ hp (by simp)
    have hc : c ∈ (s.st.cand k).getD [] := hc.resolve_right (by simp)
    cases hl : s.st.cand k with
    | none => rw [hl] at hc; simp at hc
    | some l =>
      rw [hl] at hc
      simp only [Option.getD_some] at hc
      obtain ⟨g1, g2, g3⟩ := h.core.cand k l hl
      have co := g3 c hc
      have hgood : GoodMatch P c.1 k := by
        refine ⟨co.hi, g2, g1, ?_, co.near⟩
        rw [← co.score]
        unfold strict at hs
        rw [decide_eq_true_eq] at hs
        omega
      simp only
      unfold infPlace
      rw [co.score]
      by_cases hi : s.isInf c.1 = true
      · rw [if_pos hi]
        by_cases hgt : (P.bits : ℤ) - P.dist k c.1 > scoreAt s.st c.1
        · rw [if_pos hgt]
          obtain ⟨k0, st', e, c', eA, hk0, eB, eM, eI, eC⟩ := h.core.replace ((h.isInf _).1 hi) hkB hgood
          rw [e, Outcome.bind_ok]
          have hne : k0 ≠ k := fun e' => hkB (e' ▸ hk0)
          refine ⟨_, rfl, ⟨c', ?_, ?_, ?_, ?_⟩⟩
          · intro j
            show s.isInf j = true ↔ j ∈ st'.pairs.map Prod.fst
            rw [eA]
            exact h.isInf j
          · show st'.inferior = L
            rw [eI]; exact h.inferior
          · intro y hy
            show y ∈ st'.pairs.map Prod.snd ↔ y ∈ (k :: s.erase).filter (fun e => decide (e ≠ k0))
            rw [eB, List.mem_filter, decide_eq_true_eq, List.mem_cons, ← h.erase y hy]
            constructor
            · rintro (rfl | ⟨h1, h2⟩)
              · exact ⟨Or.inl rfl, fun e => hne e.symm⟩
              · exact ⟨Or.inr h1, h2⟩
            · rintro ⟨h1 | h1, h2⟩
              · exact Or.inl h1
              · exact Or.inr ⟨h1, h2⟩
          · intro y hy
            change y ∈ (k :: s.erase).filter (fun e => decide (e ≠ k0)) at hy
            rw [List.mem_filter, List.mem_cons] at hy
            rcases hy.1 with rfl | hy
            · simp
            · exact more y hy
        · rw [if_neg hgt]
          exact ⟨_, rfl, ⟨h.core, h.isInf, h.inferior, h.erase, more⟩⟩
      · rw [if_neg hi]
        have hiA : c.1 ∉ s.st.pairs.map Prod.fst := fun hx => hi ((h.isInf _).2 hx)
        obtain ⟨st', e, c', eP, eM, eI, eC⟩ := h.core.append hiA hkB hgood
        rw [e, Outcome.bind_ok]
        refine ⟨_, rfl, ⟨c', ?_, ?_, ?_, ?_⟩⟩
        · intro j
          show upd s.isInf c.1 true j = true ↔ j ∈ st'.pairs.map Prod.fst
          rw [eP, List.map_append, List.mem_append]
          unfold upd
          split
          · next e => simp [e]
          · next e =>
            rw [h.isInf j]
            simp [e]
        · show st'.inferior = L
          rw [eI]; exact h.inferior
        · intro y hy
          show y ∈ st'.pairs.map Prod.snd ↔ y ∈ k :: s.erase
          rw [eP, List.map_append, List.mem_append, List.mem_cons, ← h.erase y hy]
          simp [or_comm]
        · intro y hy
          change y ∈ k :: s.erase at hy
          rcases List.mem_cons.1 hy with rfl | hy
          · simp
          · exact more y hy

theorem IInv.infAll {P : Input} {L : List Nat} (hL : L.Nodup) : ∀ (rest done : List Nat) {s : Inf}, L = done ++ rest →
    IInv P L done s → ∃ s', GyroMatcher.infAll P rest s = .ok s' ∧ IInv P L L s'
  | [], done, s, e, h => by
    rw [List.append_nil] at e
    exact ⟨s, rfl, by rw [← e] at h; exact h⟩
  | k :: rest, done, s, e, h => by
    have hk : k ∈ L := by rw [e]; simp
    have hkd : k ∉ done := by
      intro hm
      rw [e, List.nodup_append] at hL
      exact hL.2.2 k hm k List.mem_cons_self rfl
    obtain ⟨s1, e1, h1⟩ := h.infOne hk hkd
    obtain ⟨s2, e2, h2⟩ := IInv.infAll hL rest (done ++ [k]) (by rw [e]; simp) h1
    refine ⟨s2, ?_, h2⟩
    unfold GyroMatcher.infAll
    rw [e1, Outcome.bind_ok]
    exact e2

/-- The state between rounds of the second stage. -/
structure RInv (P : Input) (st : St) : Prop where
  core : Core P st
  matched : ∀ i, st.matched i = true ↔ i ∈ st.pairs.map Prod.fst
  infNodup : st.inferior.Nodup
  infFree : ∀ k ∈ st.inferior, k ∉ st.pairs.map Prod.snd

theorem RInv.matchInferior {P : Input} {st : St} (h : RInv P st) :
    ∃ (st' : St) (b : Bool), GyroMatcher.matchInferior P st st.matched = .ok (st', st'.matched, b) ∧ RInv P st' := by
  have h0 : IInv P st.inferior [] ⟨st, st.matched, [], false⟩ :=
    ⟨h.core, h.matched, rfl, fun k hk => by simp [h.infFree k hk], by simp⟩
  obtain ⟨s, e, i⟩ := IInv.infAll h.infNodup st.inferior [] rfl h0
  unfold GyroMatcher.matchInferior
  rw [e, Outcome.bind_ok]
  refine ⟨_, _, rfl, ⟨i.core.flags _ _, i.isInf, ?_, ?_⟩⟩
  · show (s.st.inferior.filter _).Nodup
    rw [i.inferior]
    exact h.infNodup.filter _
  · intro k hk
    change k ∈ s.st.inferior.filter _ at hk
    rw [i.inferior, List.mem_filter] at hk
    show k ∉ s.st.pairs.map Prod.snd
    rw [i.erase k hk.1]
    simpa using hk.2

theorem RInv.rounds {P : Input} : ∀ (n : Nat) {st : St}, RInv P st →
    ∃ st', GyroMatcher.rounds P n st st.matched = .ok st' ∧ RInv P st'
  | 0, st, h => ⟨st, rfl, h⟩
  | n + 1, st, h => by
    obtain ⟨st1, b, e, h1⟩ := h.matchInferior
    unfold GyroMatcher.rounds
    rw [e, Outcome.bind_ok]
    cases b with
    | true => exact RInv.rounds n h1
    | false => exact ⟨st1, rfl, h1⟩

/-! ## C39 -/

/-- For valid inputs the matcher terminates normally: no check fires and no iterator dangles.  Each keypoint of either
frame is in at most one of the matches it returns, and every match has valid indices, a successful prediction, a score
above the threshold and lies in the search window.  Inputs in which two descriptors differ in every bit are excluded,
see `complement_aborts_refuted`. -/
theorem matching_one_to_one_partial {P : Input} (V : Valid P) :
    ∃ ms, runMatch P = .ok ms ∧ (ms.map Prod.fst).Nodup ∧ (ms.map Prod.snd).Nodup ∧
      ∀ i k, (i, k) ∈ ms → GoodMatch P i k := by
  obtain ⟨lut, hl⟩ := initRows_ok (P := P) (fun q hq => lt_of_lt_of_le (by norm_num) (V.rows q hq))
  unfold runMatch
  rw [hl, Outcome.bind_ok]
  by_cases h0 : P.nK = 0 ∨ P.n1 = 0
  · rw [if_pos h0]
    exact ⟨[], rfl, by simp, by simp, by simp⟩
  · rw [if_neg h0]
    have hi : MInv P 0 St.init := by
      refine ⟨⟨?_, ?_, ?_, ?_, ?_, ?_, ?_, ?_⟩, ?_, ?_, ?_, ?_, ?_, ?_⟩ <;> simp [St.init]
    obtain ⟨s1, e1, h1⟩ := MInv.matchAll V hl P.nK 0 (by omega) hi
    rw [List.range_eq_range', e1, Outcome.bind_ok]
    obtain ⟨s2, e2, h2⟩ := RInv.rounds 3 (st := s1) ⟨h1.core, h1.matched, h1.infNodup, h1.infFree⟩
    rw [e2, Outcome.bind_ok]
    exact ⟨_, rfl, h2.core.nodupA, h2.core.nodupB, fun i k hm => h2.core.good (i, k) hm⟩

/-- Three keypoints in each frame: 0 and 1 of frame k compete for keypoint 1 of frame k+1. -/
def demo : Input :=
  { bits := 128, small := 10, large := 20, height := 100, n1 := 3, nK := 3,
    dist := fun k i => if k = 0 ∧ i = 1 then 5 else if k = 1 ∧ i = 1 then 3 else if k = 0 ∧ i = 0 then 8 else
      if k = 2 ∧ i = 2 then 1 else 60,
    pred := fun _ => (50, 50), success := fun _ => true,
    sorted := [⟨48, 45, 0⟩, ⟨50, 48, 1⟩, ⟨52, 51, 2⟩] }

theorem demo_valid : Valid demo := by
  refine ⟨?_, ?_, ?_, by decide, by decide, by decide, ?_⟩
  · unfold SortedByY
    simp [demo]
    norm_num
  · intro q hq
    simp only [demo, List.mem_cons, List.not_mem_nil, or_false] at hq
    rcases hq with rfl | rfl | rfl <;> norm_num
  · intro q hq
    simp only [demo, List.mem_cons, List.not_mem_nil, or_false] at hq
    rcases hq with rfl | rfl | rfl <;> decide
  · intro k i hk hi
    simp only [demo]
    split
    · decide
    · split
      · decide
      · split
        · decide
        · split <;> decide

example : ∃ ms, runMatch demo = .ok ms := by
  obtain ⟨ms, h, _⟩ := matching_one_to_one_partial demo_valid
  exact ⟨ms, h⟩

example : runMatch demo = .ok [(1, 1), (2, 2), (0, 0)] := by decide +kernel

/-- One descriptor that is the complement of another, in the search window: the matcher aborts. -/
theorem complement_aborts_refuted : runMatch { demo with dist := fun _ _ => 128 } = .abort := by decide +kernel

/-- The descriptor size is kept in a static variable by the first call in the process.  After a first use with 128
bits, descriptors of 512 bits whose distance is 200 make the matcher abort. -/
theorem stale_size_aborts_refuted : runMatch { demo with dist := fun _ _ => 200 } = .abort := by decide +kernel

/-- A keypoint above the image (by a pixel or more) is converted to an unsigned number: undefined behaviour. -/
theorem negative_row_refuted {P : Input} {q : KP} (hq : q ∈ P.sorted) (hy : q.y ≤ -1) : runMatch P = .ub := by
  unfold runMatch initRows
  rw [if_pos]
  · rfl
  · rw [List.any_eq_true]
    exact ⟨q, hq, by simpa using hy⟩

end Verif.GyroMatcher
