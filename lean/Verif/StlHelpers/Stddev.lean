import Verif.StlHelpers.Props
import Mathlib.Analysis.SpecialFunctions.Sqrt
import Mathlib.Tactic.Ring

/-!
# Property C83: standard deviation

Model of `stddev` of `aslam_cv_common/include/aslam/common/stl-helpers.h:63-79`; rounding is left out.
-/

namespace Verif.StlHelpers

open Verif (Outcome)

/-- The loop (stl-helpers.h:70-75). -/
def sumSq (mu : ℚ) : List ℚ → ℚ → ℚ
  | [], sum => sum
  | x :: l, sum => sumSq mu l (sum + (x - mu) * (x - mu))

/-- `stddev` (stl-helpers.h:63-79). -/
noncomputable def stddev (l : List ℚ) : Outcome ℝ :=
  if l = [] then .abort
  else do
    let mu ← mean l
    let sum := sumSq mu l 0
    Outcome.check (decide (sum ≥ 0))
    .ok (Real.sqrt ((sum / (l.length : ℚ) : ℚ) : ℝ))

/-! ## Specification -/

/-- Specification: the mean of the squared deviations from the mean of the numbers. -/
noncomputable def variance (l : List ℝ) : ℝ :=
  (l.map fun x => (x - l.sum / l.length) ^ 2).sum / l.length

theorem sumSq_eq (mu : ℚ) (l : List ℚ) : ∀ s, sumSq mu l s = s + (l.map fun x => (x - mu) ^ 2).sum := by
  induction l with
  | nil => intro s; simp [sumSq]
  | cons x l ih =>
    intro s
    rw [sumSq, ih, List.map_cons, List.sum_cons]
    ring

theorem sum_sq_nonneg (l : List ℚ) (mu : ℚ) : 0 ≤ (l.map fun x => (x - mu) ^ 2).sum := by
  apply List.sum_nonneg
  intro x hx
  obtain ⟨y, -, rfl⟩ := List.mem_map.1 hx
  positivity

theorem cast_sum (l : List ℚ) (f : ℚ → ℚ) : (((l.map f).sum : ℚ) : ℝ) = (l.map fun x => ((f x : ℚ) : ℝ)).sum := by
  induction l with
  | nil => simp
  | cons x l ih => simp [ih]

/-- The mean of a list that is not empty. -/
theorem mean_eq {l : List ℚ} (hl : l ≠ []) : mean l = .ok (l.sum / l.length) := by
  unfold mean
  rw [if_neg (by rw [List.length_eq_zero_iff]; exact hl), List.sum_eq_foldl]

/-- **C83**: the standard deviation is the square root of the variance (with divisor `n`); without data the call aborts. -/
theorem stddev_spec (l : List ℚ) :
    (l ≠ [] → stddev l = .ok (Real.sqrt (variance (l.map fun x : ℚ => (x : ℝ))))) ∧ stddev [] = .abort := by
  refine ⟨?_, by simp [stddev]⟩
  intro hl
  unfold stddev
  rw [if_neg hl, mean_eq hl]
  simp only [Outcome.bind_ok]
  have hn : sumSq (l.sum / l.length) l 0 ≥ 0 := by
    rw [sumSq_eq, zero_add]
    exact sum_sq_nonneg l _
  rw [decide_eq_true hn]
  simp only [Outcome.check_true, Outcome.bind_ok, Outcome.ok.injEq]
  congr 1
  rw [sumSq_eq, zero_add]
  unfold variance
  have hs : ((l.sum : ℚ) : ℝ) = (l.map fun x : ℚ => (x : ℝ)).sum := by
    have := cast_sum l id
    simpa using this
  rw [Rat.cast_div, cast_sum, List.length_map, List.map_map, Rat.cast_natCast]
  congr 2
  apply List.map_congr_left
  intro x _
  simp only [Function.comp_apply]
  rw [← hs]
  norm_num

/-- **C83**: it is zero exactly if all numbers are equal. -/
theorem stddev_zero {l : List ℚ} (hl : l ≠ []) : stddev l = .ok 0 ↔ ∀ x ∈ l, ∀ y ∈ l, x = y := by
  have hpos : (0 : ℚ) < (l.length : ℚ) := by
    have := List.length_pos_of_ne_nil hl
    exact_mod_cast this
  have he : stddev l = .ok (Real.sqrt (((l.map fun x => (x - l.sum / l.length) ^ 2).sum / (l.length : ℚ) : ℚ) : ℝ)) := by
    unfold stddev
    rw [if_neg hl, mean_eq hl]
    simp only [Outcome.bind_ok]
    have hn : sumSq (l.sum / l.length) l 0 ≥ 0 := by
      rw [sumSq_eq, zero_add]
      exact sum_sq_nonneg l _
    rw [decide_eq_true hn, sumSq_eq, zero_add]
    rfl
  have hq : 0 ≤ (l.map fun x => (x - l.sum / l.length) ^ 2).sum / (l.length : ℚ) :=
    div_nonneg (sum_sq_nonneg l _) hpos.le
  rw [he, Outcome.ok.injEq, Real.sqrt_eq_zero (by exact_mod_cast hq)]
  have hz : (((l.map fun x => (x - l.sum / l.length) ^ 2).sum / (l.length : ℚ) : ℚ) : ℝ) = 0 ↔
      (l.map fun x => (x - l.sum / l.length) ^ 2).sum = 0 := by
    rw [Rat.cast_eq_zero, div_eq_zero_iff]
    constructor
    · rintro (h | h)
      · exact h
      · exact absurd h hpos.ne'
    · exact Or.inl
  rw [hz]
  constructor
  · intro h
    have key : ∀ x ∈ l, x = l.sum / l.length := by
      intro x hx
      have hle : (x - l.sum / l.length) ^ 2 ≤ (l.map fun x => (x - l.sum / l.length) ^ 2).sum :=
        List.single_le_sum (by
          intro z hz
          obtain ⟨y, -, rfl⟩ := List.mem_map.1 hz
          positivity) _ (List.mem_map.2 ⟨x, hx, rfl⟩)
      rw [h] at hle
      have h0 : (x - l.sum / l.length) ^ 2 = 0 := le_antisymm hle (by positivity)
      have := pow_eq_zero_iff (two_ne_zero) |>.1 h0
      linarith
    intro x hx y hy
    rw [key x hx, key y hy]
  · intro h
    obtain ⟨a, ha⟩ := List.exists_mem_of_ne_nil l hl
    have hrep : l = List.replicate l.length a := List.eq_replicate_iff.2 ⟨rfl, fun b hb => h b hb a ha⟩
    have hsum : l.sum = l.length * a := by
      conv_lhs => rw [hrep]
      rw [List.sum_replicate, nsmul_eq_mul]
    have hmu : l.sum / l.length = a := by
      rw [hsum]
      field_simp
    rw [hmu]
    have : (l.map fun x => (x - a) ^ 2) = l.map fun _ => 0 := by
      apply List.map_congr_left
      intro x hx
      rw [h x hx a ha]
      ring
    rw [this]
    simp

/-- **C83**: adding the same number to all of them does not change it. -/
theorem stddev_shift (l : List ℚ) (c : ℚ) : stddev (l.map (· + c)) = stddev l := by
  by_cases hl : l = []
  · subst hl; rfl
  have hl' : l.map (· + c) ≠ [] := by simpa using hl
  have hpos : (l.length : ℚ) ≠ 0 := by
    have := List.length_pos_of_ne_nil hl
    have : l.length ≠ 0 := by omega
    exact_mod_cast this
  have hm : (l.map (· + c)).sum / ((l.map (· + c)).length : ℚ) = l.sum / l.length + c := by
    rw [List.length_map]
    have : (l.map (· + c)).sum = l.sum + l.length * c := by
      induction l with
      | nil => simp
      | cons x l ih =>
        by_cases h0 : l = []
        · subst h0; simp
        · rw [List.map_cons, List.sum_cons, List.sum_cons, ih h0 (by simpa using h0) (by
            have := List.length_pos_of_ne_nil h0
            have : l.length ≠ 0 := by omega
            exact_mod_cast this), List.length_cons]
          push_cast
          ring
    rw [this]
    field_simp
  unfold stddev
  rw [if_neg hl, if_neg hl', mean_eq hl, mean_eq hl', hm]
  simp only [Outcome.bind_ok]
  have : sumSq (l.sum / l.length + c) (l.map (· + c)) 0 = sumSq (l.sum / l.length) l 0 := by
    rw [sumSq_eq, sumSq_eq, List.map_map]
    congr 2
    apply List.map_congr_left
    intro x _
    simp only [Function.comp_apply]
    ring
  rw [this, List.length_map]

example : variance [1, 3] = 1 := by
  unfold variance
  norm_num

end Verif.StlHelpers
