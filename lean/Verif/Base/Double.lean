import Mathlib.Data.Rat.Floor
import Mathlib.Algebra.Order.Round
import Mathlib.Algebra.Order.Archimedean.Basic
import Mathlib.Tactic.Linarith
import Mathlib.Tactic.Positivity
import Mathlib.Tactic.NormNum

/-!
# Rounding of `double`

The values of a `double` and rounding to nearest with an arbitrary rule for ties.  The exponent is not
bounded: infinities, NaN and subnormal numbers are not modelled.
-/

namespace Verif.Double

/-- Numbers with a 53-bit significand. -/
def IsDouble (y : ℚ) : Prop := ∃ m e : ℤ, |m| < 2 ^ 53 ∧ y = m * (2 : ℚ) ^ e

/-- `rnd` rounds to a nearest double. -/
def IsNearest (rnd : ℚ → ℚ) : Prop := ∀ x, IsDouble (rnd x) ∧ ∀ y, IsDouble y → |rnd x - x| ≤ |y - x|

theorem IsNearest.exact {rnd : ℚ → ℚ} (h : IsNearest rnd) {x : ℚ} (hx : IsDouble x) : rnd x = x := by
  have := (h x).2 x hx
  rw [sub_self, abs_zero, abs_nonpos_iff] at this
  linarith

theorem IsDouble.neg {y : ℚ} (h : IsDouble y) : IsDouble (-y) := by
  obtain ⟨m, e, h1, h2⟩ := h
  exact ⟨-m, e, by rwa [abs_neg], by rw [h2]; push_cast; ring⟩

theorem isDouble_int {n : ℤ} (h : |n| ≤ 2 ^ 53) : IsDouble n := by
  rcases lt_or_eq_of_le h with h | h
  · exact ⟨n, 0, h, by simp⟩
  · rcases abs_eq (by norm_num : (0 : ℤ) ≤ 2 ^ 53) |>.mp h with h | h
    · exact ⟨1, 53, by norm_num, by rw [h]; norm_num⟩
    · exact ⟨-1, 53, by norm_num, by rw [h]; norm_num⟩

/-- Multiples `n * u`, `u` a power of two, with `|n| ≤ 2^53`. -/
theorem isDouble_mul {n e : ℤ} (h : |n| ≤ 2 ^ 53) : IsDouble (n * (2 : ℚ) ^ e) := by
  obtain ⟨m, f, h1, h2⟩ := isDouble_int h
  exact ⟨m, f + e, h1, by rw [h2, zpow_add₀ (by norm_num)]; ring⟩

/-- A double of size at least `2^52 * 2^e` is a multiple of `2^e`. -/
theorem multiple_of_large {y : ℚ} {e : ℤ} (h : IsDouble y) (hy : (2 : ℚ) ^ (52 + e) ≤ |y|) :
    ∃ n : ℤ, y = n * (2 : ℚ) ^ e := by
  obtain ⟨m, f, h1, h2⟩ := h
  by_cases hf : e ≤ f
  · obtain ⟨k, hk⟩ := Int.le.dest hf
    refine ⟨m * 2 ^ k, ?_⟩
    rw [h2, ← hk, zpow_add₀ (by norm_num), zpow_natCast]
    push_cast
    ring
  · exfalso
    have hu : (0 : ℚ) < (2 : ℚ) ^ f := zpow_pos (by norm_num) _
    have hm : (|m| : ℚ) < 2 ^ 53 := by exact_mod_cast h1
    have h3 : |y| < 2 ^ 53 * (2 : ℚ) ^ f := by
      rw [h2, abs_mul, abs_of_pos hu]
      exact mul_lt_mul_of_pos_right hm hu
    have h4 : (2 : ℚ) ^ 53 * (2 : ℚ) ^ f ≤ (2 : ℚ) ^ (52 + e) := by
      rw [← zpow_natCast, ← zpow_add₀ (by norm_num)]
      exact zpow_le_zpow_right₀ (by norm_num) (by push_cast; omega)
    linarith

/-- Inside `[2^52 u, 2^53 u]` the nearest multiple of `u` is the result. -/
theorem IsNearest.eq_of_close {rnd : ℚ → ℚ} (h : IsNearest rnd) {x : ℚ} {e n : ℤ}
    (hlo : (2 : ℚ) ^ (52 + e) ≤ x) (hn : |n| ≤ 2 ^ 53) (hx : |x - n * (2 : ℚ) ^ e| < 2 ^ e / 2) :
    rnd x = n * (2 : ℚ) ^ e := by
  have hu : (0 : ℚ) < (2 : ℚ) ^ e := zpow_pos (by norm_num) _
  obtain ⟨h1, h2⟩ := h x
  have h3 := h2 _ (isDouble_mul (e := e) hn)
  have hx' := abs_lt.mp hx
  have h4 : |rnd x - x| < 2 ^ e / 2 := lt_of_le_of_lt h3 (by rw [abs_sub_comm]; exact hx)
  have h4' := abs_lt.mp h4
  have e52 : (2 : ℚ) ^ (52 + e) = 2 ^ 52 * (2 : ℚ) ^ e := by
    rw [zpow_add₀ (by norm_num)]; norm_num
  have close : ∀ k : ℤ, rnd x = k * (2 : ℚ) ^ e → rnd x = n * (2 : ℚ) ^ e := by
    intro k hk
    have h5 : |((k - n : ℤ) : ℚ)| < 1 := by
      have h6 : |((k - n : ℤ) : ℚ) * (2 : ℚ) ^ e| < 1 * (2 : ℚ) ^ e := by
        have : ((k - n : ℤ) : ℚ) * (2 : ℚ) ^ e = rnd x - n * (2 : ℚ) ^ e := by rw [hk]; push_cast; ring
        rw [this, abs_lt]
        constructor <;> linarith
      rw [abs_mul, abs_of_pos hu] at h6
      exact lt_of_mul_lt_mul_right h6 hu.le
    have h7 : |k - n| < 1 := by exact_mod_cast h5
    have : k = n := by
      have := Int.abs_lt_one_iff.mp h7
      omega
    rw [hk, this]
  by_cases hbig : (2 : ℚ) ^ (52 + e) ≤ rnd x
  · obtain ⟨k, hk⟩ := multiple_of_large h1 (hbig.trans (le_abs_self _))
    exact close k hk
  · exfalso
    rw [not_le] at hbig
    -- the candidate is at least `2^52 u`
    have hn52 : (2 : ℤ) ^ 52 ≤ n := by
      by_contra hc
      have h8 : n ≤ 2 ^ 52 - 1 := by omega
      have h9 : (n : ℚ) ≤ 2 ^ 52 - 1 := by exact_mod_cast h8
      have : (n : ℚ) * (2 : ℚ) ^ e ≤ (2 ^ 52 - 1) * (2 : ℚ) ^ e := mul_le_mul_of_nonneg_right h9 hu.le
      rw [e52] at hlo
      linarith
    by_cases hd : (n : ℚ) * (2 : ℚ) ^ e ≤ x
    · have h10 : (2 : ℚ) ^ (52 + e) ≤ n * (2 : ℚ) ^ e := by
        rw [e52]
        exact mul_le_mul_of_nonneg_right (by exact_mod_cast hn52) hu.le
      rw [abs_of_nonpos (by linarith), abs_of_nonpos (by linarith)] at h3
      linarith
    · rw [not_le] at hd
      have hn53 : (2 : ℤ) ^ 52 + 1 ≤ n := by
        by_contra hc
        have : n = 2 ^ 52 := by omega
        rw [this] at hd
        push_cast at hd
        rw [e52] at hlo
        linarith
      have h11 : ((2 : ℚ) ^ 52 + 1) * (2 : ℚ) ^ e ≤ n * (2 : ℚ) ^ e :=
        mul_le_mul_of_nonneg_right (by exact_mod_cast hn53) hu.le
      rw [e52] at hbig
      linarith

theorem exists_nearest_pos {x : ℚ} (hx : 0 < x) :
    ∃ d, IsDouble d ∧ ∀ y, IsDouble y → |d - x| ≤ |y - x| := by
  obtain ⟨k, hk⟩ := exists_mem_Ico_zpow hx (by norm_num : (1 : ℚ) < 2)
  obtain ⟨hlo, hhi⟩ := Set.mem_Ico.mp hk
  obtain ⟨e, rfl⟩ : ∃ e, k = 52 + e := ⟨k - 52, by ring⟩
  have hu : (0 : ℚ) < (2 : ℚ) ^ e := zpow_pos (by norm_num) _
  have e52 : (2 : ℚ) ^ (52 + e) = 2 ^ 52 * (2 : ℚ) ^ e := by rw [zpow_add₀ (by norm_num)]; norm_num
  have e53 : (2 : ℚ) ^ (52 + e + 1) = 2 ^ 53 * (2 : ℚ) ^ e := by
    rw [show 52 + e + 1 = 53 + e by ring, zpow_add₀ (by norm_num)]; norm_num
  rw [e52] at hlo
  rw [e53] at hhi
  have hq1 : (2 : ℚ) ^ 52 ≤ x / 2 ^ e := by rw [le_div_iff₀ hu]; exact hlo
  have hq2 : x / 2 ^ e < 2 ^ 53 := by rw [div_lt_iff₀ hu]; exact hhi
  have hxq : x = x / 2 ^ e * 2 ^ e := by field_simp
  have habs : ∀ n : ℤ, |(n : ℚ) * 2 ^ e - x| = |(n : ℚ) - x / 2 ^ e| * 2 ^ e := by
    intro n
    conv_lhs => rw [hxq]
    rw [← sub_mul, abs_mul, abs_of_pos hu]
  have hbest : ∀ n : ℤ, |(round (x / 2 ^ e) : ℚ) * 2 ^ e - x| ≤ |(n : ℚ) * 2 ^ e - x| := by
    intro n
    rw [habs, habs]
    refine mul_le_mul_of_nonneg_right ?_ hu.le
    rw [abs_sub_comm, abs_sub_comm (n : ℚ)]
    exact round_le _ n
  have hr1 : (0 : ℤ) ≤ round (x / 2 ^ e) := by
    rw [round_eq]
    exact Int.floor_nonneg.mpr (by linarith)
  have hr2 : round (x / 2 ^ e) ≤ 2 ^ 53 := by
    rw [round_eq]
    have : ⌊x / 2 ^ e + 1 / 2⌋ < 2 ^ 53 + 1 := by
      rw [Int.floor_lt]; push_cast; linarith
    omega
  refine ⟨(round (x / 2 ^ e) : ℚ) * 2 ^ e, isDouble_mul (by rw [abs_of_nonneg hr1]; exact hr2), ?_⟩
  intro y hy
  by_cases hb : (2 : ℚ) ^ (52 + e) ≤ y
  · obtain ⟨n, hn⟩ := multiple_of_large hy (hb.trans (le_abs_self _))
    rw [hn]; exact hbest n
  · rw [not_le, e52] at hb
    refine (hbest (2 ^ 52)).trans ?_
    push_cast
    rw [abs_of_nonpos (by linarith), abs_of_nonpos (by linarith)]
    linarith

/-- Rounding to nearest exists. -/
theorem exists_isNearest : ∃ rnd, IsNearest rnd := by
  have h : ∀ x, ∃ d, IsDouble d ∧ ∀ y, IsDouble y → |d - x| ≤ |y - x| := by
    intro x
    rcases lt_trichotomy x 0 with hx | hx | hx
    · obtain ⟨d, h1, h2⟩ := exists_nearest_pos (neg_pos.mpr hx)
      refine ⟨-d, h1.neg, fun y hy => ?_⟩
      have := h2 (-y) hy.neg
      rw [show -d - x = -(d - -x) by ring, abs_neg, show y - x = -(-y - -x) by ring, abs_neg]
      exact this
    · subst hx
      exact ⟨0, ⟨0, 0, by norm_num, by norm_num⟩, fun y _ => by simp⟩
    · exact exists_nearest_pos hx
  choose rnd h1 using h
  exact ⟨rnd, h1⟩

end Verif.Double
