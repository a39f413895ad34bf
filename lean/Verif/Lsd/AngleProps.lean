import Mathlib.Tactic.Linarith
import Mathlib.Tactic.NormNum
import Mathlib.Tactic.Ring
import Mathlib.Tactic.LinearCombination
import Mathlib.Tactic.Positivity
import Verif.Lsd.Angle

/-!
# Properties of angles in the line segment detector (C99)
-/

open scoped Classical

namespace Verif.Lsd

theorem raise_spec (fuel : Nat) (d : ℝ) :
    (∃ k : ℕ, raise fuel d = d + 2 * Real.pi * k) ∧
      (-Real.pi < d → raise fuel d = d) ∧
      (d ≤ -Real.pi → raise fuel d ≤ Real.pi) ∧
      (-d ≤ fuel → -Real.pi < raise fuel d) := by
  have hp := Real.pi_gt_three
  induction fuel generalizing d with
  | zero =>
    refine ⟨⟨0, by simp [raise]⟩, fun _ => rfl, fun h => ?_, fun h => ?_⟩
    · simp only [raise]; linarith
    · simp only [raise]; push_cast at h; linarith
  | succ fuel ih =>
    by_cases hd : d ≤ -Real.pi
    · simp only [raise, if_pos hd]
      obtain ⟨⟨k, hk⟩, h1, h2, h3⟩ := ih (d + 2 * Real.pi)
      refine ⟨⟨k + 1, by rw [hk]; push_cast; ring⟩, fun h => absurd h (by linarith), fun _ => ?_,
        fun h => h3 (by push_cast at h; linarith)⟩
      by_cases h' : d + 2 * Real.pi ≤ -Real.pi
      · exact h2 h'
      · rw [h1 (by linarith)]; linarith
    · simp only [raise, if_neg hd]
      exact ⟨⟨0, by simp⟩, fun _ => trivial, fun h => absurd h hd, fun _ => by linarith⟩

theorem lower_spec (fuel : Nat) (d : ℝ) :
    (∃ k : ℕ, lower fuel d = d - 2 * Real.pi * k) ∧
      (d ≤ Real.pi → lower fuel d = d) ∧
      (Real.pi < d → -Real.pi < lower fuel d) ∧
      (d ≤ fuel → lower fuel d ≤ Real.pi) := by
  have hp := Real.pi_gt_three
  induction fuel generalizing d with
  | zero =>
    refine ⟨⟨0, by simp [lower]⟩, fun _ => rfl, fun h => ?_, fun h => ?_⟩
    · simp only [lower]; linarith
    · simp only [lower]; push_cast at h; linarith
  | succ fuel ih =>
    by_cases hd : Real.pi < d
    · simp only [lower, if_pos hd]
      obtain ⟨⟨k, hk⟩, h1, h2, h3⟩ := ih (d - 2 * Real.pi)
      refine ⟨⟨k + 1, by rw [hk]; push_cast; ring⟩, fun h => absurd h (by linarith), fun _ => ?_,
        fun h => h3 (by push_cast at h; linarith)⟩
      by_cases h' : Real.pi < d - 2 * Real.pi
      · exact h2 h'
      · rw [h1 (by linarith)]; linarith
    · simp only [lower, if_neg hd]
      exact ⟨⟨0, by simp⟩, fun _ => trivial, fun h => absurd h hd, fun _ => by linarith⟩

/-- C99: the signed difference of two angles is above -π and at most π. -/
theorem angleDiffSigned_range (a b : ℝ) :
    -Real.pi < angleDiffSigned a b ∧ angleDiffSigned a b ≤ Real.pi := by
  have hp := Real.pi_gt_three
  have hf : |a - b| ≤ (⌈|a - b|⌉₊ : ℝ) := Nat.le_ceil _
  obtain ⟨-, r1, r2, r3⟩ := raise_spec ⌈|a - b|⌉₊ (a - b)
  obtain ⟨-, l1, l2, l3⟩ := lower_spec ⌈|a - b|⌉₊ (raise ⌈|a - b|⌉₊ (a - b))
  have hlo := r3 (le_trans (neg_le_abs _) hf)
  unfold angleDiffSigned
  simp only
  constructor
  · by_cases h : Real.pi < raise ⌈|a - b|⌉₊ (a - b)
    · exact l2 h
    · rw [l1 (by linarith)]; exact hlo
  · by_cases h : Real.pi < raise ⌈|a - b|⌉₊ (a - b)
    · apply l3
      by_cases h' : a - b ≤ -Real.pi
      · have := r2 h'; linarith
      · rw [r1 (by linarith)]; exact le_trans (le_abs_self _) hf
    · rw [l1 (by linarith)]; linarith

/-- C99: it differs from the difference of the numbers by whole turns. -/
theorem angleDiffSigned_turns (a b : ℝ) :
    ∃ k : ℤ, angleDiffSigned a b = a - b + 2 * Real.pi * k := by
  obtain ⟨⟨k, hk⟩, -⟩ := raise_spec ⌈|a - b|⌉₊ (a - b)
  obtain ⟨⟨l, hl⟩, -⟩ := lower_spec ⌈|a - b|⌉₊ (raise ⌈|a - b|⌉₊ (a - b))
  refine ⟨(k : ℤ) - l, ?_⟩
  unfold angleDiffSigned
  simp only
  rw [hl, hk]
  push_cast
  ring

/-- C99: `angle_diff` is the distance of two directions: the least of the differences over whole
turns. -/
theorem angleDiff_least (a b : ℝ) :
    (∃ k : ℤ, angleDiff a b = |a - b + 2 * Real.pi * k|) ∧
      ∀ k : ℤ, angleDiff a b ≤ |a - b + 2 * Real.pi * k| := by
  have hp := Real.pi_pos
  obtain ⟨k0, h0⟩ := angleDiffSigned_turns a b
  obtain ⟨h1, h2⟩ := angleDiffSigned_range a b
  refine ⟨⟨k0, by rw [angleDiff, h0]⟩, fun k => ?_⟩
  have he : a - b + 2 * Real.pi * k = angleDiffSigned a b + 2 * Real.pi * ((k - k0 : ℤ) : ℝ) := by
    rw [h0]; push_cast; ring
  rw [he, angleDiff]
  have hr : |angleDiffSigned a b| ≤ Real.pi := abs_le.2 ⟨h1.le, h2⟩
  rcases lt_trichotomy (k - k0) 0 with h | h | h
  · have : ((k - k0 : ℤ) : ℝ) ≤ -1 := by
      have : k - k0 ≤ -1 := by omega
      exact_mod_cast this
    have : angleDiffSigned a b + 2 * Real.pi * ((k - k0 : ℤ) : ℝ) ≤ -Real.pi := by nlinarith
    rw [abs_of_nonpos (by linarith : angleDiffSigned a b + 2 * Real.pi * ((k - k0 : ℤ) : ℝ) ≤ 0)]
    linarith
  · rw [h]; simp
  · have : (1 : ℝ) ≤ ((k - k0 : ℤ) : ℝ) := by
      have : 1 ≤ k - k0 := by omega
      exact_mod_cast this
    have : Real.pi ≤ angleDiffSigned a b + 2 * Real.pi * ((k - k0 : ℤ) : ℝ) := by nlinarith
    rw [abs_of_nonneg (by linarith : 0 ≤ angleDiffSigned a b + 2 * Real.pi * ((k - k0 : ℤ) : ℝ))]
    linarith

/-- C99: the distance of two directions is symmetric. -/
theorem angleDiff_symm (a b : ℝ) : angleDiff a b = angleDiff b a := by
  apply le_antisymm
  · obtain ⟨k, hk⟩ := (angleDiff_least b a).1
    have := (angleDiff_least a b).2 (-k)
    have he : b - a + 2 * Real.pi * k = -(a - b + 2 * Real.pi * ((-k : ℤ) : ℝ)) := by
      push_cast
      ring
    rwa [hk, he, abs_neg]
  · obtain ⟨k, hk⟩ := (angleDiff_least a b).1
    have := (angleDiff_least b a).2 (-k)
    have he : a - b + 2 * Real.pi * k = -(b - a + 2 * Real.pi * ((-k : ℤ) : ℝ)) := by
      push_cast
      ring
    rwa [hk, he, abs_neg]

/-- Two directions are within `prec` of each other. -/
def Within (a theta prec : ℝ) : Prop := ∃ k : ℤ, |theta - a + 2 * Real.pi * k| ≤ prec

/-- C99: within the tolerance, up to full turns, is what `angle_diff` measures. -/
theorem within_iff (a theta prec : ℝ) : Within a theta prec ↔ angleDiff theta a ≤ prec := by
  constructor
  · rintro ⟨k, hk⟩
    exact le_trans ((angleDiff_least theta a).2 k) hk
  · intro h
    obtain ⟨k, hk⟩ := (angleDiff_least theta a).1
    exact ⟨k, hk ▸ h⟩

/-- C99: what `isAligned` computes for a pixel with a direction. -/
theorem isAligned_some (a theta prec : ℝ) :
    isAligned (some a) theta prec ↔
      (if 3 * Real.pi / 2 < |theta - a| then |(|theta - a| - 2 * Real.pi)| else |theta - a|) ≤
        prec := by
  have h : ∀ x : ℝ, (if x < 0 then -x else x) = |x| := by
    intro x
    split_ifs with hx
    · rw [abs_of_neg hx]
    · rw [abs_of_nonneg (not_lt.1 hx)]
  unfold isAligned
  simp only [h]

/-- C99: with a tolerance below 90 degrees, and the angles the detector works with (they differ by
at most three half turns and a bit: those of the pixels are from 0 to 2π, those of the rectangles
from 0 to 3π), a pixel is aligned exactly if its direction is within the tolerance. A pixel without a
direction never is. -/
theorem isAligned_iff {a theta prec : ℝ} (hd : |theta - a| ≤ 3 * Real.pi) (h0 : 0 ≤ prec)
    (hprec : prec < Real.pi / 2) :
    isAligned (some a) theta prec ↔ Within a theta prec := by
  have hp := Real.pi_pos
  rw [isAligned_some]
  set x := theta - a with hx
  constructor
  · intro h
    split_ifs at h with h'
    · rcases abs_cases x with ⟨hx', -⟩ | ⟨hx', -⟩
      · refine ⟨-1, ?_⟩
        rw [hx'] at h
        push_cast
        convert h using 2
        ring
      · refine ⟨1, ?_⟩
        rw [hx'] at h
        rw [← abs_neg]
        push_cast
        convert h using 2
        ring
    · exact ⟨0, by simpa using h⟩
  · rintro ⟨k, hk⟩
    obtain ⟨k1, k2⟩ := abs_le.1 hk
    obtain ⟨d1, d2⟩ := abs_le.1 hd
    have hk2 : k ≤ 1 := by
      by_contra hc
      have : (2 : ℝ) ≤ (k : ℝ) := by
        have : (2 : ℤ) ≤ k := by omega
        exact_mod_cast this
      nlinarith
    have hk1 : -1 ≤ k := by
      by_contra hc
      have : (k : ℝ) ≤ -2 := by
        have : k ≤ (-2 : ℤ) := by omega
        exact_mod_cast this
      nlinarith
    obtain rfl | rfl | rfl : k = -1 ∨ k = 0 ∨ k = 1 := by omega
    · push_cast at k1 k2
      have hx0 : 3 * Real.pi / 2 < x := by linarith
      have : |x| = x := abs_of_pos (by linarith)
      rw [this, if_pos hx0, abs_le]
      constructor <;> linarith
    · simp only [Int.cast_zero, mul_zero, add_zero] at hk
      rw [if_neg (by linarith)]
      exact hk
    · push_cast at k1 k2
      have hx0 : 3 * Real.pi / 2 < -x := by linarith
      have : |x| = -x := abs_of_neg (by linarith)
      rw [this, if_pos hx0, abs_le]
      constructor <;> linarith

/-- C99: a pixel without a direction is not aligned. -/
theorem isAligned_none (theta prec : ℝ) : ¬ isAligned none theta prec := fun h => h

/-- Directions of 10 and 350 degrees are aligned up to 22.5 degrees. -/
example : isAligned (some (350 * Real.pi / 180)) (10 * Real.pi / 180) (Real.pi / 8) := by
  have hp := Real.pi_pos
  rw [isAligned_iff _ (by positivity) (by linarith)]
  · refine ⟨1, ?_⟩
    push_cast
    rw [abs_le]
    constructor <;> linarith
  · rw [abs_le]
    constructor <;> linarith

/-- C99 refuted for larger tolerances, which the constructor takes up to 180 degrees: with a
tolerance of 120 degrees, directions that differ by 110 degrees are not aligned if the difference of
the numbers is 250 degrees, although those that differ by 110 degrees are otherwise. -/
theorem isAligned_wide_refuted :
    ∃ a theta prec : ℝ, (0 ≤ a ∧ a < 2 * Real.pi) ∧ (0 ≤ theta ∧ theta < 2 * Real.pi) ∧
      prec < Real.pi ∧ Within a theta prec ∧ ¬ isAligned (some a) theta prec := by
  have hp := Real.pi_pos
  refine ⟨0, 250 * Real.pi / 180, 2 * Real.pi / 3, ⟨le_rfl, by linarith⟩,
    ⟨by linarith, by linarith⟩, by linarith, ⟨-1, ?_⟩, ?_⟩
  · push_cast
    rw [abs_le]
    constructor <;> linarith
  · rw [isAligned_some, sub_zero, abs_of_nonneg (by linarith), if_neg (by linarith)]
    intro h
    linarith

/-! ### Comparing numbers -/

/-- C99: `double_equal` is reflexive and symmetric. -/
theorem doubleEqual_refl (a : ℝ) : doubleEqual a a := Or.inl rfl

theorem max_eq_ite (a b : ℝ) : (if |b| < |a| then |a| else |b|) = max |a| |b| := by
  rcases lt_or_ge |b| |a| with h | h
  · rw [if_pos h, max_eq_left h.le]
  · rw [if_neg (not_lt.2 h), max_eq_right h]

/-- C99: `double_equal` is symmetric. -/
theorem doubleEqual_symm {a b : ℝ} (h : doubleEqual a b) : doubleEqual b a := by
  rcases h with h | h
  · exact Or.inl h.symm
  · right
    rw [max_eq_ite, abs_sub_comm] at h
    rw [max_eq_ite, max_comm]
    exact h

/-- C99: only numbers closer to zero than any normal `double` pass for zero. -/
theorem doubleEqual_zero_iff (a : ℝ) :
    doubleEqual a 0 ↔ |a| ≤ (1 / 2) ^ 1022 * (100 * (1 / 2) ^ 52) := by
  have hm : (0 : ℝ) < (1 / 2) ^ 1022 := by positivity
  have hmax : (if |(0 : ℝ)| < |a| then |a| else |(0 : ℝ)|) = |a| := by
    rw [max_eq_ite, abs_zero, max_eq_left (abs_nonneg a)]
  have hsmall : (100 : ℝ) * (1 / 2) ^ 52 < 1 := by norm_num
  unfold doubleEqual
  rw [hmax, sub_zero]
  constructor
  · rintro (h | h)
    · rw [h, abs_zero]; positivity
    · split_ifs at h with h'
      · rw [div_le_iff₀ hm] at h
        linarith
      · have h2 : |a| ≠ 0 := by intro h0; rw [h0] at h'; exact h' hm
        rw [div_self h2] at h
        linarith
  · intro h
    right
    have : |a| < (1 / 2) ^ 1022 := lt_of_le_of_lt h (mul_lt_of_lt_one_right hm hsmall)
    rw [if_pos this, div_le_iff₀ hm]
    linarith

end Verif.Lsd
