import Verif.Accumulator.Model
import Verif.Undistort.Model
import Verif.FeatureTrack.Model
import Verif.VisualFrame.Copy
import Verif.Yaml.Sensor
import Mathlib.Tactic.Linarith
import Mathlib.Tactic.NormNum
import Mathlib.Tactic.Positivity
import Mathlib.Tactic.Ring

/-!
# The constants of the code (C36, C43, C78, C82, C87)

The limits of number types that the code starts its searches with are what they should be, and tolerances are as
documented.
-/

namespace Verif.Limits

/-- A finite binary floating point number with `p` bits and exponents from `lo` to `hi`. -/
def IsFloat (p : ℕ) (lo hi : ℤ) (y : ℚ) : Prop :=
  ∃ m e : ℤ, |m| < 2 ^ p ∧ lo ≤ e ∧ e ≤ hi ∧ y = m * (2 : ℚ) ^ e

/-- The same with the full number of bits. -/
def IsNormal (p : ℕ) (lo hi : ℤ) (y : ℚ) : Prop :=
  ∃ m e : ℤ, 2 ^ (p - 1) ≤ |m| ∧ |m| < 2 ^ p ∧ lo ≤ e ∧ e ≤ hi ∧ y = m * (2 : ℚ) ^ e

/-- A finite `double`. -/
def Double (y : ℚ) : Prop := IsFloat 53 (-1074) 971 y

/-- A finite `float`. -/
def Single (y : ℚ) : Prop := IsFloat 24 (-149) 104 y

theorem greatest (p : ℕ) {lo hi : ℤ} (h : lo ≤ hi) :
    IsFloat p lo hi ((2 ^ p - 1) * (2 : ℚ) ^ hi) ∧ ∀ y, IsFloat p lo hi y → |y| ≤ (2 ^ p - 1) * (2 : ℚ) ^ hi := by
  have hp : (1 : ℤ) ≤ 2 ^ p := one_le_pow₀ (by norm_num)
  refine ⟨⟨2 ^ p - 1, hi, ?_, h, le_rfl, by push_cast; ring⟩, ?_⟩
  · rw [abs_of_nonneg (by linarith)]
    linarith
  · rintro y ⟨m, e, hm, -, he, rfl⟩
    have h2 : (0 : ℚ) < 2 ^ e := by positivity
    rw [abs_mul, abs_of_pos h2]
    have h1 : |(m : ℚ)| ≤ 2 ^ p - 1 := by
      have : |m| ≤ 2 ^ p - 1 := by linarith
      exact_mod_cast this
    have h3 : (2 : ℚ) ^ e ≤ 2 ^ hi := zpow_le_zpow_right₀ (by norm_num) he
    have h4 : (0 : ℚ) ≤ 2 ^ p - 1 := le_trans (abs_nonneg _) h1
    exact mul_le_mul h1 h3 h2.le h4

/-- The accumulator starts its search for the smallest and the largest sample at the largest `double`. -/
theorem accumulator_max : Double Accumulator.maxDouble ∧ ∀ y, Double y → |y| ≤ Accumulator.maxDouble := by
  have : Accumulator.maxDouble = (2 ^ 53 - 1) * (2 : ℚ) ^ (971 : ℤ) := by
    unfold Accumulator.maxDouble
    norm_num
  rw [this]
  exact greatest 53 (by norm_num)

/-- The box around a track is started with the largest `double`. -/
theorem track_max : Double FeatureTrack.dblMax ∧ ∀ y, Double y → |y| ≤ FeatureTrack.dblMax := by
  have : FeatureTrack.dblMax = (2 ^ 53 - 1) * (2 : ℚ) ^ (971 : ℤ) := by
    unfold FeatureTrack.dblMax
    rw [zpow_ofNat, show (1023 : ℕ) = 52 + 971 from rfl, pow_add]
    generalize (2 : ℚ) ^ 971 = z
    ring
  rw [this]
  exact greatest 53 (by norm_num)

/-- Its other start value is the smallest positive normalised `double`, not the smallest `double`. -/
theorem track_min : IsNormal 53 (-1074) 971 FeatureTrack.dblMin ∧ 0 < FeatureTrack.dblMin ∧
    (∀ y, IsNormal 53 (-1074) 971 y → FeatureTrack.dblMin ≤ |y|) ∧
    ∃ y, Double y ∧ y < FeatureTrack.dblMin := by
  have e : FeatureTrack.dblMin = (2 : ℚ) ^ (-1022 : ℤ) := by
    unfold FeatureTrack.dblMin
    norm_num
  rw [e]
  refine ⟨⟨2 ^ 52, -1074, by norm_num, by norm_num, le_rfl, by norm_num, ?_⟩, by positivity, ?_,
    ⟨-1, ⟨-1, 0, by norm_num, by norm_num, by norm_num, by norm_num⟩, ?_⟩⟩
  · rw [show (((2 ^ 52 : ℤ)) : ℚ) = (2 : ℚ) ^ (52 : ℤ) by norm_num, ← zpow_add₀ (by norm_num)]
    norm_num
  · rintro y ⟨m, k, hm, -, hk, -, rfl⟩
    have h2 : (0 : ℚ) < 2 ^ k := by positivity
    rw [abs_mul, abs_of_pos h2]
    have h1 : (2 : ℚ) ^ (52 : ℤ) ≤ |(m : ℚ)| := by
      have h0 : (2 ^ 52 : ℤ) ≤ |m| := hm
      have : ((2 ^ 52 : ℤ) : ℚ) ≤ ((|m| : ℤ) : ℚ) := Int.cast_le.2 h0
      rw [Int.cast_abs] at this
      refine le_trans (le_of_eq ?_) this
      norm_num
    have h3 : (2 : ℚ) ^ (-1074 : ℤ) ≤ 2 ^ k := zpow_le_zpow_right₀ (by norm_num) hk
    calc (2 : ℚ) ^ (-1022 : ℤ) = 2 ^ (52 : ℤ) * 2 ^ (-1074 : ℤ) := by
          rw [← zpow_add₀ (by norm_num : (2 : ℚ) ≠ 0)]; norm_num
      _ ≤ |(m : ℚ)| * 2 ^ k := mul_le_mul h1 h3 (by positivity) (abs_nonneg _)
  · have : (0 : ℚ) < 2 ^ (-1022 : ℤ) := by positivity
    linarith

/-- The edges of the undistorted image are started with the largest `float`. -/
theorem edges_max : ∃ q : ℚ, Undistort.fltMax = q ∧ Single q ∧ ∀ y, Single y → |y| ≤ q := by
  refine ⟨(2 ^ 24 - 1) * (2 : ℚ) ^ (104 : ℤ), ?_, greatest 24 (by norm_num)⟩
  unfold Undistort.fltMax
  push_cast
  norm_num

/-- The time of a new frame is the smallest `int64_t`. -/
theorem invalid_time : -(2 ^ 63) ≤ VisualFrame.Copy.invalidTime ∧ VisualFrame.Copy.invalidTime < 2 ^ 63 ∧
    ∀ t : Int, -(2 ^ 63) ≤ t → VisualFrame.Copy.invalidTime ≤ t := by
  unfold VisualFrame.Copy.invalidTime
  exact ⟨le_rfl, by norm_num, fun t h => h⟩

/-- Matrices of the same size are taken as equal by comparisons of rigs exactly if no entry differs by `1e-8` or more. -/
theorem matClose_iff {a b : Yaml.Mat} (h : a.entries.length = b.entries.length) :
    Yaml.matClose a b = true ↔ ∀ (i : ℕ) (x y : ℚ), a.entries[i]? = some x → b.entries[i]? = some y → |x - y| * 10 ^ 8 < 1 := by
  unfold Yaml.matClose Yaml.kEpsilon
  rw [List.all_eq_true]
  constructor
  · intro hall i x y hx hy
    have := hall (decide (|x - y| < 1 / 100000000)) (by
      rw [List.mem_iff_getElem?]
      exact ⟨i, by rw [List.getElem?_zipWith, hx, hy]⟩)
    have := of_decide_eq_true this
    norm_num
    linarith
  · intro hall v hv
    rw [List.mem_iff_getElem?] at hv
    obtain ⟨i, hi⟩ := hv
    rw [List.getElem?_zipWith] at hi
    cases hx : a.entries[i]? with
    | none => rw [hx] at hi; simp at hi
    | some x =>
      cases hy : b.entries[i]? with
      | none => rw [hx, hy] at hi; simp at hi
      | some y =>
        rw [hx, hy] at hi
        simp only [Option.some.injEq] at hi
        have := hall i x y hx hy
        norm_num at this
        rw [← hi]
        exact decide_eq_true (by linarith)

/-- A new rig has no cameras, and no covariance; the matrix for it is a 6 by 6 matrix of zeros. -/
theorem freshRig_spec (P : Type) : (Yaml.freshRig P).hasCov = false ∧ (Yaml.freshRig P).cov.rows = 6 ∧
    (Yaml.freshRig P).cov.cols = 6 ∧ (Yaml.freshRig P).cov.entries = List.replicate 36 0 := by
  exact ⟨rfl, rfl, rfl, rfl⟩

/-- Two matrices that differ by less than the tolerance. -/
example : Yaml.matClose ⟨1, 1, [[1]]⟩ ⟨1, 1, [[1 + 1 / 10 ^ 9]]⟩ = true := by
  rw [matClose_iff (by rfl)]
  intro i x y hx hy
  cases i with
  | zero =>
    simp only [Yaml.Mat.entries, List.flatten_cons, List.flatten_nil, List.append_nil, List.getElem?_cons_zero,
      Option.some.injEq] at hx hy
    subst hx hy
    norm_num
  | succ i => simp [Yaml.Mat.entries] at hx

end Verif.Limits
