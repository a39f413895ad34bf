import Verif.Target.Props

/-!
# Points and corners by index

`gridPoint` (target-base.cc:44-46), `getObservedCorner` and `getObservedCornerId` (target-observation.h:71-95) for all
indices.
-/

namespace Verif.Target

open Verif (Outcome)

/-- C57: `gridPoint` gives the point of a row and a column; outside of the grid it aborts. -/
theorem gridPoint_spec (t : Target) (hs : t.points.length = t.size) (hsz : t.size = t.rows * t.cols) (row col : Nat) :
    (∃ p, t.points[t.cols * row + col]? = some p ∧ gridPoint t row col = .ok p ∧ row < t.rows ∧ col < t.cols) ∨
      (gridPoint t row col = .abort ∧ (t.rows ≤ row ∨ t.cols ≤ col)) := by
  unfold gridPoint gridCoordinatesToPoint
  by_cases hr : row < t.rows
  · by_cases hc : col < t.cols
    · have hlt : t.cols * row + col < t.size := by
        rw [hsz]
        calc t.cols * row + col < t.cols * row + t.cols := by omega
          _ = (row + 1) * t.cols := by ring
          _ ≤ t.rows * t.cols := Nat.mul_le_mul_right _ hr
      left
      rw [if_pos hr, if_pos hc, if_pos hlt, Outcome.bind_ok]
      have hl : t.cols * row + col < t.points.length := by omega
      exact ⟨t.points[t.cols * row + col], by simp [hl], by rw [List.getElem?_eq_getElem hl], hr, hc⟩
    · right
      rw [if_pos hr, if_neg hc, Outcome.bind_abort]
      exact ⟨rfl, Or.inr (by omega)⟩
  · right
    rw [if_neg hr, Outcome.bind_abort]
    exact ⟨rfl, Or.inl (by omega)⟩

/-- C58: `getObservedCorner` gives the corner of an index, and aborts for all larger indices below 2^31. -/
theorem getObservedCorner_spec (o : Observation) (i : Nat) :
    (∀ p, o.corners[i]? = some p → getObservedCorner o i = .ok p) ∧
      (o.corners.length ≤ i → i < 2 ^ 31 → getObservedCorner o i = .abort) := by
  constructor
  · intro p hp
    have hlt : i < o.corners.length := (List.getElem?_eq_some_iff.mp hp).1
    unfold getObservedCorner
    rw [if_pos (by have := toInt_le i; omega), hp]
  · intro hl hi
    unfold getObservedCorner
    rw [if_neg (by rw [toInt_small hi]; omega)]

/-- C58, deviation: the check of `getObservedCorner` looks at the index as an `int`, so that indices from 2^31 to
2^32 - 1 pass and memory outside of the matrix is read. -/
theorem getObservedCorner_refuted (o : Observation) (i : Nat) (h1 : 2 ^ 31 ≤ i) (h2 : i < 2 ^ 32)
    (hl : o.corners.length ≤ i) : getObservedCorner o i = .ub := by
  have ht : toInt i < 0 := by
    unfold toInt
    rw [Nat.mod_eq_of_lt h2, if_neg (by omega)]
    omega
  unfold getObservedCorner
  rw [if_pos (by omega), List.getElem?_eq_none hl]

/-- C58: `getObservedCornerId` gives the id of an index, as a `size_t`, and aborts for larger indices. -/
theorem getObservedCornerId_spec (o : Observation) (i : Nat) :
    (∀ id, o.ids[i]? = some id → 0 ≤ id → id < 2 ^ 31 → getObservedCornerId o i = .ok id.toNat) ∧
      (o.ids.length ≤ i → getObservedCornerId o i = .abort) := by
  constructor
  · intro id hp h0 h1
    have hlt : i < o.ids.length := (List.getElem?_eq_some_iff.mp hp).1
    unfold getObservedCornerId
    rw [if_pos (by omega), if_pos (by omega), Int.toNat_natCast, hp]
    have : id = (id.toNat : Int) := (Int.toNat_of_nonneg h0).symm
    have hof : ofInt id = id.toNat := by
      conv_lhs => rw [this]
      exact ofInt_nat (by omega)
    simp only [hof]
  · intro hl
    unfold getObservedCornerId
    rw [if_neg (by omega)]

/-- C58, deviation: a negative index passes the check of `getObservedCornerId`. -/
theorem getObservedCornerId_refuted (o : Observation) (i : Int) (h : i < 0) : getObservedCornerId o i = .ub := by
  unfold getObservedCornerId
  rw [if_pos (by omega), if_neg (by omega)]

/-- Negative ids become huge. -/
theorem ofInt_neg (k : Nat) (h0 : 0 < k) (h : k ≤ 2 ^ 64) : ofInt (-(k : Int)) = 2 ^ 64 - k := by
  unfold ofInt
  have : (-(k : Int)) % 2 ^ 64 = 2 ^ 64 - k := by
    omega
  rw [this]
  omega

/-- C58: an observed id below zero is no id of a target, so that `getCorrespondingTargetPoints` aborts. -/
theorem negative_id_aborts (o : Observation) (k : Nat) (h0 : 0 < k) (hk : k ≤ 2 ^ 31) (ids : List Int)
    (hs : o.target.size ≤ 2 ^ 63) (hi : o.ids = -(k : Int) :: ids) : getCorrespondingTargetPoints o = .abort := by
  unfold getCorrespondingTargetPoints
  rw [hi]
  unfold targetPoints point
  rw [ofInt_neg k h0 (by omega), if_neg (by omega), Outcome.bind_abort]

/-! ### Non-vacuity -/

example : gridPoint ⟨1, 2, [(0, 0, 0), (1, 0, 0)]⟩ 0 1 = .ok (1, 0, 0) := rfl
example : getObservedCorner ⟨⟨1, 1, []⟩, [3], [(1, 2)], []⟩ 0 = .ok (1, 2) := by decide
example : getObservedCorner ⟨⟨1, 1, []⟩, [3], [(1, 2)], []⟩ 1 = .abort := by decide
example : getObservedCornerId ⟨⟨1, 1, []⟩, [3], [(1, 2)], []⟩ 0 = .ok 3 := by decide
example : getCorrespondingTargetPoints ⟨⟨1, 1, [(0, 0, 0)]⟩, [-1], [(1, 2)], []⟩ = .abort :=
  negative_id_aborts _ 1 (by norm_num) (by norm_num) [] (by simp [Target.size]) rfl

end Verif.Target
