import Verif.GyroMatcher.RowProps
import Verif.GyroMatcher.RatioProps

/-!
# Which keypoint is found (C41)
-/

namespace Verif.GyroMatcher

open Verif (Outcome)

/-- Whether a keypoint of frame k+1 is in the window of half size `w` around the prediction of keypoint `k`. -/
def inWindow (P : Input) (k w : Nat) (q : KP) : Bool :=
  decide (topRow P (P.pred k).2 w ≤ row q) && decide ((row q : ℤ) < bottomRow P (P.pred k).2 w) &&
    decide ((trunc ((P.pred k).1 - w) : ℚ) ≤ q.x) && decide (q.x ≤ trunc ((P.pred k).1 + w))

/-- The keypoints that are compared with keypoint `k`: those in the small window, and if none of them is good enough also
the others in the large window. -/
def visited (P : Input) (k : Nat) : List Nat :=
  let c := (P.sorted.filter (inWindow P k P.small)).map KP.idx
  if c.any fun i => qualifies P.bits (P.dist k i) then c
  else c ++ (P.sorted.filter fun q => inWindow P k P.large q && !c.contains q.idx).map KP.idx

/-- The first of the keypoints with the least distance, provided it is good enough. -/
def IsFound (P : Input) (k : Nat) (l : List Nat) (i : Nat) : Prop :=
  qualifies P.bits (P.dist k i) = true ∧
    ∃ a b, l = a ++ i :: b ∧ (∀ j ∈ a, P.dist k i < P.dist k j) ∧ ∀ j ∈ b, P.dist k i ≤ P.dist k j

structure Seen (P : Input) (k : Nat) (l : List Nat) (s : Search) : Prop where
  none : s.it = none → s.best = (P.bits * 4 / 5 : Nat) ∧ ∀ j ∈ l, qualifies P.bits (P.dist k j) = false
  some : ∀ i, s.it = some i → s.best = (P.bits : ℤ) - P.dist k i ∧ IsFound P k l i
  cands : s.cands = l.map fun i => (i, (P.bits : ℤ) - P.dist k i)

theorem Seen.visit {P : Input} {k i : Nat} {l : List Nat} {s s' : Search} (h : Seen P k l s)
    (hv : visit P k s i = .ok s') : Seen P k (l ++ [i]) s' := by
  unfold GyroMatcher.visit at hv
  split at hv
  · split at hv
    · cases hv
      have hc : s.cands ++ [(i, (P.bits : ℤ) - P.dist k i)] = (l ++ [i]).map fun i => (i, (P.bits : ℤ) - P.dist k i) := by
        rw [h.cands]; simp
      unfold update
      split
      · next hgt =>
        refine ⟨by simp, ?_, hc⟩
        intro j hj
        simp only [Option.some.injEq] at hj
        subst hj
        refine ⟨rfl, ?_⟩
        cases hit : s.it with
        | none =>
          obtain ⟨e, hq⟩ := h.none hit
          have hqi : qualifies P.bits (P.dist k i) = true := by
            unfold qualifies; rw [decide_eq_true_eq, ← e]; exact hgt
          refine ⟨hqi, l, [], rfl, ?_, by simp⟩
          intro j hj
          have := hq j hj
          unfold qualifies at this hqi
          simp only [decide_eq_false_iff_not, decide_eq_true_eq] at this hqi
          omega
        | some i0 =>
          obtain ⟨e, hq, a, b, rfl, ha, hb⟩ := h.some i0 hit
          rw [e] at hgt
          have hlt : P.dist k i < P.dist k i0 := by omega
          refine ⟨qualifies_mono (Nat.le_of_lt hlt) hq, a ++ i0 :: b, [], by simp, ?_, by simp⟩
          intro j hj
          rcases List.mem_append.1 hj with hj | hj
          · have := ha j hj; omega
          · rcases List.mem_cons.1 hj with rfl | hj
            · exact hlt
            · have := hb j hj; omega
      · next hle =>
        have key : Seen P k (l ++ [i]) { s with cands := s.cands ++ [(i, (P.bits : ℤ) - P.dist k i)] } := by
          refine ⟨?_, ?_, hc⟩
          · intro hit
            obtain ⟨e, hq⟩ := h.none hit
            refine ⟨e, ?_⟩
            intro j hj
            rcases List.mem_append.1 hj with hj | hj
            · exact hq j hj
            · simp only [List.mem_singleton] at hj
              subst hj
              unfold qualifies
              rw [decide_eq_false_iff_not, ← e]
              exact hle
          · intro i0 hit
            obtain ⟨e, hq, a, b, rfl, ha, hb⟩ := h.some i0 hit
            refine ⟨e, hq, a, b ++ [i], by simp, ha, ?_⟩
            intro j hj
            rcases List.mem_append.1 hj with hj | hj
            · exact hb j hj
            · simp only [List.mem_singleton] at hj
              subst hj
              have : s.best = (P.bits : ℤ) - P.dist k i0 := e
              omega
        split
        · exact ⟨key.none, key.some, key.cands⟩
        · exact key
    · cases hv
  · cases hv

theorem Seen.visitAll {P : Input} {k : Nat} : ∀ (is l : List Nat) {s s' : Search}, Seen P k l s →
    visitAll P k is s = .ok s' → Seen P k (l ++ is) s'
  | [], l, s, s', h, hv => by
    unfold GyroMatcher.visitAll at hv
    cases hv
    simpa using h
  | i :: is, l, s, s', h, hv => by
    unfold GyroMatcher.visitAll at hv
    obtain ⟨s1, h1, h2⟩ := Outcome.bind_eq_ok.1 hv
    have := Seen.visitAll is _ (h.visit h1) h2
    simpa using this

theorem filter_columns (P : Input) (k w : Nat) (f : KP → Bool) :
    (P.sorted.filter fun q => decide (topRow P (P.pred k).2 w ≤ row q ∧ (row q : ℤ) < bottomRow P (P.pred k).2 w)).filter
        (fun q => f q && inColumns (P.pred k).1 w q) =
    P.sorted.filter fun q => inWindow P k w q && f q := by
  rw [List.filter_filter]
  congr 1
  funext q
  unfold inWindow inColumns
  rw [Bool.eq_iff_iff]
  simp only [Bool.and_eq_true, decide_eq_true_eq, Bool.not_eq_true', Bool.or_eq_false_iff, decide_eq_false_iff_not, not_lt,
    gt_iff_lt]
  tauto

/-- Which keypoint the search finds: of those in the small window, and if none of these is good enough of those in the
large window as well, the first one with the least distance, if it is good enough; and it remembers all it has compared. -/
theorem search_finds {P : Input} {lut : List Nat} (hl : initRows P = .ok lut) (hs : SortedByY P.sorted)
    (hh : 0 < P.height) (hsm : 0 < P.small) (hla : 0 < P.large) {k : Nat} {s : Search} (h : search P lut k = .ok s) :
    (∀ i, s.it = some i ↔ IsFound P k (visited P k) i) ∧
      s.cands = (visited P k).map fun i => (i, (P.bits : ℤ) - P.dist k i) := by
  unfold search at h
  obtain ⟨c, hc, h⟩ := Outcome.bind_eq_ok.1 h
  obtain ⟨s1, h1, h⟩ := Outcome.bind_eq_ok.1 h
  unfold smallCands at hc
  rw [window_exact_partial hl hs hh _ hsm, Outcome.bind_ok] at hc
  cases hc
  have e1 := filter_columns P k P.small (fun _ => true)
  simp only [Bool.true_and, Bool.and_true] at e1
  rw [e1] at h1 h
  have h0 : Seen P k [] (Search.init P.bits) := ⟨fun _ => ⟨rfl, by simp⟩, by simp [Search.init], rfl⟩
  have g1 := h0.visitAll _ _ h1
  rw [List.nil_append] at g1
  have final : ∀ {l : List Nat} {s : Search}, Seen P k l s → visited P k = l →
      (∀ i, s.it = some i ↔ IsFound P k (visited P k) i) ∧
        s.cands = (visited P k).map fun i => (i, (P.bits : ℤ) - P.dist k i) := by
    intro l s hS hv
    rw [hv]
    refine ⟨fun i => ⟨fun hi => (hS.some i hi).2, ?_⟩, hS.cands⟩
    rintro ⟨hq, a, b, hab, ha, hb⟩
    cases hit : s.it with
    | none =>
      have := (hS.none hit).2 i (by rw [hab]; simp)
      rw [this] at hq
      cases hq
    | some j =>
      obtain ⟨-, -, a', b', hab', ha', hb'⟩ := hS.some j hit
      rw [hab] at hab'
      rcases List.append_eq_append_iff.1 hab' with ⟨x, hx1, hx2⟩ | ⟨x, hx1, hx2⟩
      · cases x with
        | nil => simp only [List.nil_append, List.cons.injEq] at hx2; rw [hx2.1]
        | cons y x =>
          simp only [List.cons_append, List.cons.injEq] at hx2
          have t1 := ha' i (by rw [hx1, hx2.1]; simp)
          have t2 := hb j (by rw [hx2.2]; simp)
          omega
      · cases x with
        | nil => simp only [List.nil_append, List.cons.injEq] at hx2; rw [hx2.1]
        | cons y x =>
          simp only [List.cons_append, List.cons.injEq] at hx2
          have t1 := ha j (by rw [hx1, hx2.1]; simp)
          have t2 := hb' i (by rw [hx2.2]; simp)
          omega
  unfold searchLarge at h
  split at h
  · next hit =>
    obtain ⟨c2, hc2, h⟩ := Outcome.bind_eq_ok.1 h
    unfold largeCands at hc2
    rw [window_exact_partial hl hs hh _ hla, Outcome.bind_ok] at hc2
    cases hc2
    rw [filter_columns P k P.large] at h
    have g2 := g1.visitAll _ _ h
    refine final g2 ?_
    unfold visited
    simp only
    rw [if_neg]
    rw [List.any_eq_true]
    rintro ⟨j, hj, hq⟩
    have := (g1.none hit).2 j hj
    rw [this] at hq
    cases hq
  · next hit =>
    cases h
    refine final g1 ?_
    unfold visited
    simp only
    rw [if_pos]
    rw [List.any_eq_true]
    cases hj : s.it with
    | none => exact absurd hj hit
    | some j =>
      obtain ⟨-, hq, a, b, hab, -⟩ := g1.some j hj
      exact ⟨j, by rw [hab]; simp, hq⟩

/-- Two keypoints in the large window only; the first is not good enough, the second is found. -/
def demoSearch : Input :=
  { bits := 128, small := 2, large := 20, height := 100, n1 := 2, nK := 1, dist := fun _ i => if i = 0 then 60 else 10
    pred := fun _ => (50, 50), success := fun _ => true, sorted := [⟨50, 40, 0⟩, ⟨55, 60, 1⟩] }

example : visited demoSearch 0 = [0, 1] ∧ IsFound demoSearch 0 [0, 1] 1 :=
  ⟨by decide +kernel, by decide, [0], [], rfl, by decide, by decide⟩

example : SortedByY demoSearch.sorted := by
  unfold SortedByY demoSearch
  norm_num

end Verif.GyroMatcher
