import Mathlib.Algebra.Field.GeomSum
import Mathlib.Analysis.Complex.ExponentialBounds
import Mathlib.Data.Nat.Choose.Sum
import Mathlib.Algebra.BigOperators.Intervals
import Verif.Lsd.Nfa
import Verif.Lsd.AngleProps

/-!
# Properties of the number of false alarms (C105)
-/

open scoped Classical

namespace Verif.Lsd

open Finset

/-! ### Specification -/

/-- The probability of exactly `i` successes in `n` trials. -/
noncomputable def binom (n : Nat) (p : ℝ) (i : Nat) : ℝ :=
  n.choose i * p ^ i * (1 - p) ^ (n - i)

/-- The probability of `k` to `j` successes in `n` trials. -/
noncomputable def tailTo (n k j : Nat) (p : ℝ) : ℝ := ∑ i ∈ Icc k j, binom n p i

/-- The logarithm of the number of false alarms, with the sign changed, as the comment says it: `10 ^ logNT`
tests, and the probability that at least `k` of `n` pixels are aligned. -/
noncomputable def trueNfa (logNT : ℝ) (n k : Nat) (p : ℝ) : ℝ :=
  -log10 (10 ^ logNT * tailTo n k n p)

/-- `logGamma` is exact for factorials. -/
def ExactGamma (logGamma : ℝ → ℝ) : Prop := ∀ n : Nat, logGamma (n + 1) = Real.log n.factorial

/-! ### Facts about binomials -/

theorem binom_pos {n : Nat} {p : ℝ} (h0 : 0 < p) (h1 : p < 1) {i : Nat} (hi : i ≤ n) :
    0 < binom n p i := by
  unfold binom
  have : 0 < n.choose i := Nat.choose_pos hi
  have h2 : 0 < 1 - p := by linarith
  positivity

theorem binom_succ {n : Nat} {p : ℝ} (h1 : p < 1) {i : Nat} (hi : i < n) :
    binom n p (i + 1) = binom n p i * (((n : ℝ) - (i + 1 : Nat) + 1) / (i + 1 : Nat) * (p / (1 - p))) := by
  unfold binom
  have hc := Nat.choose_succ_right_eq n i
  have hc' : (n.choose (i + 1) : ℝ) * (i + 1) = n.choose i * ((n : ℝ) - i) := by
    have : ((n - i : Nat) : ℝ) = (n : ℝ) - i := by rw [Nat.cast_sub hi.le]
    rw [← this]
    exact_mod_cast hc
  have h2 : (1 - p) ≠ 0 := by linarith
  have h3 : ((i : ℝ) + 1) ≠ 0 := by positivity
  have hp : (1 - p) ^ (n - i) = (1 - p) ^ (n - (i + 1)) * (1 - p) := by
    rw [← pow_succ]
    congr 1
    omega
  rw [hp]
  push_cast
  field_simp
  have : (n.choose (i + 1) : ℝ) * p ^ (i + 1) * (i + 1) =
      n.choose i * ((n : ℝ) - i) * p ^ (i + 1) := by
    linear_combination p ^ (i + 1) * hc'
  rw [show (n : ℝ) - (i + 1) + 1 = (n : ℝ) - i by ring]
  rw [pow_succ] at this ⊢
  linear_combination this

theorem tailTo_succ {n k j : Nat} {p : ℝ} (h : k ≤ j + 1) :
    tailTo n k (j + 1) p = tailTo n k j p + binom n p (j + 1) := by
  unfold tailTo
  rw [Finset.sum_Icc_succ_top h]

theorem tailTo_self (n k : Nat) (p : ℝ) : tailTo n k k p = binom n p k := by simp [tailTo]

theorem tailTo_pos {n k j : Nat} {p : ℝ} (h0 : 0 < p) (h1 : p < 1) (hk : k ≤ j) (hj : j ≤ n) :
    0 < tailTo n k j p := by
  unfold tailTo
  refine Finset.sum_pos (fun i hi => binom_pos h0 h1 ?_) ⟨k, by simp [hk]⟩
  have := (Finset.mem_Icc.1 hi).2
  omega

/-- After `j` the terms fall at least as fast as a geometric sequence. -/
theorem binom_geom {n j : Nat} {p : ℝ} (h0 : 0 < p) (h1 : p < 1) (hj : 0 < j) (hjn : j ≤ n)
    (m : Nat) (hm : j + m ≤ n) :
    binom n p (j + m) ≤ binom n p j * (((n : ℝ) - j + 1) / j * (p / (1 - p))) ^ m := by
  have hj' : (0 : ℝ) < j := by exact_mod_cast hj
  have hjn' : (j : ℝ) ≤ n := by exact_mod_cast hjn
  have hp : 0 < p / (1 - p) := div_pos h0 (by linarith)
  have hx : 0 ≤ ((n : ℝ) - j + 1) / j * (p / (1 - p)) := by
    have : 0 ≤ ((n : ℝ) - j + 1) / j := div_nonneg (by linarith) hj'.le
    exact mul_nonneg this hp.le
  induction m with
  | zero => simp
  | succ m ih =>
    have ih := ih (by omega)
    rw [← Nat.add_assoc, binom_succ h1 (by omega), pow_succ]
    have hb := (binom_pos h0 h1 (n := n) (i := j + m) (by omega)).le
    have hr : ((n : ℝ) - (j + m + 1 : Nat) + 1) / (j + m + 1 : Nat) * (p / (1 - p)) ≤
        ((n : ℝ) - j + 1) / j * (p / (1 - p)) := by
      apply mul_le_mul_of_nonneg_right _ hp.le
      have hmn : ((j + m + 1 : Nat) : ℝ) ≤ n := by exact_mod_cast hm
      apply div_le_div₀
      · linarith
      · push_cast
        have : (0 : ℝ) ≤ m := by positivity
        linarith
      · exact hj'
      · push_cast
        have : (0 : ℝ) ≤ m := by positivity
        linarith
    calc binom n p (j + m) * (((n : ℝ) - (j + m + 1 : Nat) + 1) / (j + m + 1 : Nat) * (p / (1 - p)))
        ≤ binom n p (j + m) * (((n : ℝ) - j + 1) / j * (p / (1 - p))) :=
          mul_le_mul_of_nonneg_left hr hb
      _ ≤ binom n p j * (((n : ℝ) - j + 1) / j * (p / (1 - p))) ^ m *
          (((n : ℝ) - j + 1) / j * (p / (1 - p))) := mul_le_mul_of_nonneg_right ih hx
      _ = _ := by ring

/-- What is left out after `j` is at most the error that is estimated. -/
theorem tail_rest {n k j : Nat} {p : ℝ} (h0 : 0 < p) (h1 : p < 1) (hj : 0 < j) (hkj : k ≤ j)
    (hjn : j ≤ n) (hx : ((n : ℝ) - j + 1) / j * (p / (1 - p)) ≠ 1) :
    tailTo n k n p - tailTo n k j p ≤ binom n p j *
      ((1 - (((n : ℝ) - j + 1) / j * (p / (1 - p))) ^ (n - j + 1)) /
        (1 - ((n : ℝ) - j + 1) / j * (p / (1 - p))) - 1) := by
  set x := ((n : ℝ) - j + 1) / j * (p / (1 - p)) with hxd
  have hg : ∑ m ∈ range (n - j + 1), x ^ m = (1 - x ^ (n - j + 1)) / (1 - x) := by
    rw [geom_sum_eq hx]
    rw [← neg_div_neg_eq]
    congr 1 <;> ring
  rw [← hg, Finset.sum_range_succ', pow_zero]
  have hs : tailTo n k n p - tailTo n k j p = ∑ m ∈ range (n - j), binom n p (j + (m + 1)) := by
    have : ∀ d, tailTo n k (j + d) p - tailTo n k j p = ∑ m ∈ range d, binom n p (j + (m + 1)) := by
      intro d
      induction d with
      | zero => simp
      | succ d ih =>
        rw [← Nat.add_assoc, tailTo_succ (by omega), Finset.sum_range_succ, ← ih]
        rw [show j + (d + 1) = j + d + 1 by omega]
        ring
    have := this (n - j)
    rwa [show j + (n - j) = n by omega] at this
  rw [hs, add_sub_cancel_right, Finset.mul_sum]
  apply Finset.sum_le_sum
  intro m hm
  rw [Finset.mem_range] at hm
  exact binom_geom h0 h1 hj hjn (m + 1) (by omega)

/-! ### What is computed -/

/-- The loop computes a multiple of the probabilities from `k` up to some `j`; if it stops before `n`,
what is left out is small. -/
theorem nfaLoop_spec {n k : Nat} {p logNT F : ℝ} (h0 : 0 < p) (h1 : p ≤ 1 / 2) (hF : 0 < F) (hk : 0 < k)
    (fuel : Nat) : ∀ i, k ≤ i → i + fuel = n →
    ∃ j, k ≤ j ∧ j ≤ n ∧
      nfaLoop n (p / (1 - p)) logNT fuel (i + 1) (F * binom n p i) (F * tailTo n k i p) =
        F * tailTo n k j p ∧
      tailTo n k n p - tailTo n k j p ≤
        1 / 10 * |(-log10 (F * tailTo n k j p)) - logNT| * tailTo n k j p := by
  induction fuel with
  | zero =>
    intro i hki hin
    refine ⟨i, hki, by omega, rfl, ?_⟩
    obtain rfl : i = n := by omega
    rw [sub_self]
    have := (tailTo_pos h0 (by linarith) hki le_rfl : 0 < tailTo i k i p)
    positivity
  | succ fuel ih =>
    intro i hki hin
    rw [nfaLoop]
    have hterm : F * binom n p i * (((n : ℝ) - (i + 1 : Nat) + 1) / (i + 1 : Nat) * (p / (1 - p))) =
        F * binom n p (i + 1) := by
      rw [binom_succ (by linarith) (by omega)]
      ring
    have htail : F * tailTo n k i p + F * binom n p (i + 1) = F * tailTo n k (i + 1) p := by
      rw [tailTo_succ (by omega)]
      ring
    simp only [hterm, htail]
    split_ifs with h
    · obtain ⟨hb, he⟩ := h
      refine ⟨i + 1, by omega, by omega, rfl, ?_⟩
      have hp1 : p / (1 - p) ≤ 1 := by
        rw [div_le_one (by linarith)]
        linarith
      have hp0 : 0 < p / (1 - p) := div_pos h0 (by linarith)
      have hbn : 0 ≤ ((n : ℝ) - (i + 1 : Nat) + 1) / (i + 1 : Nat) := by
        apply div_nonneg
        · have : ((i + 1 : Nat) : ℝ) ≤ n := by
            have : i + 1 ≤ n := by omega
            exact_mod_cast this
          linarith
        · positivity
      have hx : ((n : ℝ) - (i + 1 : Nat) + 1) / (i + 1 : Nat) * (p / (1 - p)) ≠ 1 := by
        have : ((n : ℝ) - (i + 1 : Nat) + 1) / (i + 1 : Nat) * (p / (1 - p)) < 1 := by
          nlinarith
        exact this.ne
      have hrest := tail_rest (n := n) (k := k) (j := i + 1) h0 (by linarith) (by omega) (by omega)
        (by omega) hx
      have he' : F * (tailTo n k n p - tailTo n k (i + 1) p) <
          F * (1 / 10 * |(-log10 (F * tailTo n k (i + 1) p)) - logNT| * tailTo n k (i + 1) p) := by
        calc F * (tailTo n k n p - tailTo n k (i + 1) p) ≤ F * _ :=
              mul_le_mul_of_nonneg_left hrest hF.le
          _ < _ := by
            rw [← mul_assoc]
            refine lt_of_lt_of_eq he ?_
            ring
      exact (lt_of_mul_lt_mul_left he' hF.le).le
    · exact ih (i + 1) (by omega) (by omega)

theorem log10_mul {a b : ℝ} (ha : 0 < a) (hb : 0 < b) : log10 (a * b) = log10 a + log10 b := by
  unfold log10
  rw [Real.log_mul ha.ne' hb.ne', add_div]

theorem log10_inv (a : ℝ) : log10 a⁻¹ = -log10 a := by
  unfold log10
  rw [Real.log_inv, neg_div]

theorem log10_ten_rpow (a : ℝ) : log10 (10 ^ a) = a := by
  have h10 : Real.log 10 ≠ 0 := (Real.log_pos (by norm_num)).ne'
  unfold log10
  rw [Real.log_rpow (by norm_num), mul_div_assoc, div_self h10, mul_one]

theorem log10_pos {a : ℝ} (h : 1 < a) : 0 < log10 a :=
  div_pos (Real.log_pos h) (Real.log_pos (by norm_num))

theorem log10_neg {a : ℝ} (h0 : 0 < a) (h : a < 1) : log10 a < 0 :=
  div_neg_of_neg_of_pos (Real.log_neg h0 h) (Real.log_pos (by norm_num))

theorem log10_mono {a b : ℝ} (ha : 0 < a) (h : a ≤ b) : log10 a ≤ log10 b :=
  div_le_div_of_nonneg_right (Real.log_le_log ha h) (Real.log_pos (by norm_num)).le

theorem trueNfa_eq {logNT : ℝ} {n k : Nat} {p : ℝ} (h0 : 0 < p) (h1 : p < 1) (hk : k ≤ n) :
    trueNfa logNT n k p = -log10 (tailTo n k n p) - logNT := by
  unfold trueNfa
  rw [log10_mul (Real.rpow_pos_of_pos (by norm_num) _) (tailTo_pos h0 h1 hk le_rfl), log10_ten_rpow]
  ring

/-- The first term of the sum. -/
theorem first_term {logGamma : ℝ → ℝ} (hG : ExactGamma logGamma) {n k : Nat} {p : ℝ} (h0 : 0 < p)
    (h1 : p < 1) (hk : k ≤ n) :
    Real.exp ((n + 1) - logGamma (k + 1) - logGamma ((n - k : Nat) + 1) + k * Real.log p +
      (n - k : Nat) * Real.log (1 - p)) = Real.exp (n + 1) / n.factorial * binom n p k := by
  have hp : 0 < 1 - p := by linarith
  rw [hG k, hG (n - k), Real.exp_add, Real.exp_add, Real.exp_sub, Real.exp_sub,
    Real.exp_log (by exact_mod_cast k.factorial_pos), Real.exp_log (by exact_mod_cast (n - k).factorial_pos),
    ← Real.log_pow, ← Real.log_pow, Real.exp_log (by positivity), Real.exp_log (by positivity)]
  unfold binom
  have hch : (n.choose k : ℝ) * k.factorial * (n - k).factorial = n.factorial := by
    exact_mod_cast Nat.choose_mul_factorial_mul_factorial hk
  have f1 : (k.factorial : ℝ) ≠ 0 := by exact_mod_cast k.factorial_ne_zero
  have f2 : ((n - k).factorial : ℝ) ≠ 0 := by exact_mod_cast (n - k).factorial_ne_zero
  have f3 : (n.factorial : ℝ) ≠ 0 := by exact_mod_cast n.factorial_ne_zero
  field_simp
  linear_combination -1 * hch

/-! ### C105 -/

/-- C105: with no pixels, or none aligned, the value is that of one certain event per test. -/
theorem nfa_none (logGamma : ℝ → ℝ) (logNT : ℝ) {n k : Nat} {p : ℝ} (h0 : 0 < p) (h1 : p < 1)
    (h : k = 0) : nfa logGamma logNT n k p = trueNfa logNT n k p := by
  subst h
  rw [trueNfa_eq h0 h1 (Nat.zero_le n)]
  unfold nfa
  rw [if_pos (Or.inr rfl)]
  have : tailTo n 0 n p = 1 := by
    unfold tailTo
    have h := add_pow p (1 - p) n
    rw [show p + (1 - p) = 1 by ring, one_pow] at h
    rw [h, Nat.range_succ_eq_Icc_zero]
    refine Finset.sum_congr rfl fun i _ => ?_
    unfold binom
    ring
  rw [this]
  simp [log10]

/-- C105: with all pixels aligned the value is right. -/
theorem nfa_all (logGamma : ℝ → ℝ) (logNT : ℝ) {n : Nat} {p : ℝ} (h0 : 0 < p) (h1 : p < 1)
    (hn : 0 < n) : nfa logGamma logNT n n p = trueNfa logNT n n p := by
  rw [trueNfa_eq h0 h1 le_rfl]
  unfold nfa
  rw [if_neg (by omega), if_pos rfl, tailTo_self]
  unfold binom log10
  rw [Nat.choose_self, Nat.sub_self]
  simp only [Nat.cast_one, one_mul, pow_zero, mul_one, Real.log_pow]
  ring

/-- C105: in all other cases the value is off by the logarithm of `n! / e ^ (n + 1)`, apart from leaving
out a part of the sum that is small compared to the sum. (If the first term is as good as zero only that
term counts, and only if more pixels are aligned than are expected.) -/
theorem nfa_offset {logGamma : ℝ → ℝ} (hG : ExactGamma logGamma) (logNT : ℝ) {n k : Nat} {p : ℝ}
    (h0 : 0 < p) (h1 : p ≤ 1 / 2) (hk : 0 < k) (hkn : k < n) :
    if doubleEqual (Real.exp (n + 1) / n.factorial * binom n p k) 0 then
      nfa logGamma logNT n k p = if n * p < k then
        -log10 (binom n p k) - logNT + log10 (n.factorial / Real.exp (n + 1)) else -logNT
    else ∃ j, k ≤ j ∧ j ≤ n ∧
      nfa logGamma logNT n k p =
        -log10 (tailTo n k j p) - logNT + log10 (n.factorial / Real.exp (n + 1)) ∧
      tailTo n k n p - tailTo n k j p ≤ 1 / 10 * |nfa logGamma logNT n k p| * tailTo n k j p := by
  have hF : (0 : ℝ) < Real.exp (n + 1) / n.factorial :=
    div_pos (Real.exp_pos _) (by exact_mod_cast n.factorial_pos)
  have hterm := first_term hG h0 (show p < 1 by linarith) hkn.le
  have hinv : log10 (n.factorial / Real.exp (n + 1)) = -log10 (Real.exp (n + 1) / n.factorial) := by
    rw [← log10_inv, inv_div]
  have hval : nfa logGamma logNT n k p =
      if doubleEqual (Real.exp (n + 1) / n.factorial * binom n p k) 0 then
        (if n * p < k then -log10 (Real.exp (n + 1) / n.factorial * binom n p k) - logNT else -logNT)
      else -log10 (nfaLoop n (p / (1 - p)) logNT (n - k) (k + 1)
        (Real.exp (n + 1) / n.factorial * binom n p k)
        (Real.exp (n + 1) / n.factorial * binom n p k)) - logNT := by
    rw [nfa, if_neg (by omega), if_neg (by omega)]
    simp only
    rw [← hterm]
    simp only [log10, Real.log_exp, neg_div]
  by_cases hd : doubleEqual (Real.exp (n + 1) / n.factorial * binom n p k) 0
  · rw [if_pos hd, hval, if_pos hd]
    split_ifs with hc
    · rw [log10_mul hF (binom_pos h0 (by linarith) hkn.le), hinv]
      ring
    · rfl
  · rw [if_neg hd]
    rw [if_neg hd] at hval
    obtain ⟨j, j1, j2, j3, j4⟩ := nfaLoop_spec (n := n) (logNT := logNT) h0 h1 hF hk (n - k) k le_rfl (by omega)
    rw [tailTo_self] at j3
    rw [j3] at hval
    refine ⟨j, j1, j2, ?_, ?_⟩
    · rw [hval, log10_mul hF (tailTo_pos h0 (by linarith) j1 j2), hinv]
      ring
    · rw [hval]
      exact j4

/-- Exact logarithms of factorials exist. -/
noncomputable def exactGamma (x : ℝ) : ℝ := Real.log (⌊x⌋₊ - 1).factorial

theorem exactGamma_exact : ExactGamma exactGamma := by
  intro n
  unfold exactGamma
  have : ⌊(n : ℝ) + 1⌋₊ = n + 1 := by
    rw [show (n : ℝ) + 1 = ((n + 1 : Nat) : ℝ) by push_cast; rfl, Nat.floor_natCast]
  rw [this]
  rfl

theorem not_tiny {a : ℝ} (h : 1 / 10 ^ 30 ≤ a) : ¬ doubleEqual a 0 := by
  rw [doubleEqual_zero_iff, not_le]
  have h1 : (0 : ℝ) < 1 / 10 ^ 30 := by positivity
  rw [abs_of_pos (lt_of_lt_of_le h1 h)]
  refine lt_of_lt_of_le ?_ h
  have h2 : (100 : ℝ) * (1 / 2) ^ 52 < 1 := by norm_num
  have h3 : ((1 : ℝ) / 2) ^ 1022 = 1 / 2 ^ 1022 := by rw [one_div_pow]
  have h4 : (10 : ℝ) ^ 30 ≤ 2 ^ 1022 := by
    have : (10 : ℕ) ^ 30 ≤ 2 ^ 1022 := by decide +kernel
    exact_mod_cast this
  calc ((1 : ℝ) / 2) ^ 1022 * (100 * (1 / 2) ^ 52) < (1 / 2) ^ 1022 :=
        mul_lt_of_lt_one_right (by positivity) h2
    _ = 1 / 2 ^ 1022 := h3
    _ ≤ 1 / 10 ^ 30 := one_div_le_one_div_of_le (by positivity) h4

theorem quarter_le {E : ℝ} (h : 1 ≤ E) : 1 / 4 ≤ E / 2 * (1 / 2) := by linarith

theorem one_lt_quarter {E : ℝ} (h : 8 < E) : 1 < E / 2 * (1 / 2) := by linarith

/-- The hypotheses of `nfa_offset` are met, and the loop is reached, with two pixels one of which is
aligned. -/
example : ExactGamma exactGamma ∧ ¬ doubleEqual (Real.exp ((2 : ℕ) + 1) / (2 : ℕ).factorial *
    binom 2 (1 / 2) 1) 0 := by
  refine ⟨exactGamma_exact, not_tiny ?_⟩
  have h1 : (1 : ℝ) ≤ Real.exp ((2 : ℕ) + 1) := Real.one_le_exp (by norm_num)
  have h2 : binom 2 (1 / 2) 1 = 1 / 2 := by norm_num [binom]
  rw [h2]
  have h3 : ((2 : ℕ).factorial : ℝ) = 2 := by norm_num [Nat.factorial]
  rw [h3]
  have h4 : (1 : ℝ) / 10 ^ 30 ≤ 1 / 4 := by norm_num
  exact le_trans h4 (quarter_le h1)

/-- C105, refuted: "number of false alarms in the line region, with precision of 10%". With two pixels, one
of them aligned, and a probability of one half, the number is 3/4; the value says that it is more than
one. -/
theorem nfa_refuted : ¬ ∀ (logGamma : ℝ → ℝ) (logNT : ℝ) (n k : Nat) (p : ℝ), ExactGamma logGamma →
    0 < p → p ≤ 1 / 2 → k ≤ n →
    |nfa logGamma logNT n k p - trueNfa logNT n k p| ≤ 1 / 10 * |trueNfa logNT n k p| := by
  intro h
  have h' := h exactGamma 0 2 1 (1 / 2) exactGamma_exact (by norm_num) le_rfl (by norm_num)
  have hoff := nfa_offset exactGamma_exact 0 (n := 2) (k := 1) (p := 1 / 2) (by norm_num) le_rfl
    (by norm_num) (by norm_num)
  have h3 : ((2 : ℕ).factorial : ℝ) = 2 := by norm_num [Nat.factorial]
  have hb1 : binom 2 (1 / 2) 1 = 1 / 2 := by norm_num [binom]
  have hb2 : binom 2 (1 / 2) 2 = 1 / 4 := by norm_num [binom]
  have he : (8 : ℝ) < Real.exp ((2 : ℕ) + 1) := by
    have h1 : (2 : ℝ) < Real.exp 1 := lt_trans (by norm_num) Real.exp_one_gt_d9
    have : Real.exp ((2 : ℕ) + 1) = Real.exp 1 ^ 3 := by
      rw [← Real.exp_nat_mul]; norm_num
    rw [this]
    nlinarith [mul_pos (by linarith : (0:ℝ) < Real.exp 1) (by linarith : (0:ℝ) < Real.exp 1),
      mul_self_nonneg (Real.exp 1 - 2)]
  rw [if_neg (by
    rw [h3, hb1]
    apply not_tiny
    have h4 : (1 : ℝ) / 10 ^ 30 ≤ 1 / 4 := by norm_num
    exact le_trans h4 (quarter_le (le_trans (by norm_num) he.le)))] at hoff
  obtain ⟨j, j1, j2, j3, -⟩ := hoff
  have ht : 1 / 2 ≤ tailTo 2 1 j (1 / 2) := by
    rcases (show j = 1 ∨ j = 2 by omega) with rfl | rfl
    · rw [tailTo_self, hb1]
    · rw [show (2 : ℕ) = 1 + 1 from rfl, tailTo_succ (by norm_num), tailTo_self]
      norm_num [binom]
  have hfull : tailTo 2 1 2 (1 / 2) = 3 / 4 := by
    have := tailTo_succ (n := 2) (k := 1) (j := 1) (p := 1 / 2) (by norm_num)
    rw [tailTo_self, hb1, show 1 + 1 = 2 from rfl, hb2] at this
    rw [this]
    norm_num
  have htrue : 0 < trueNfa 0 2 1 (1 / 2) := by
    rw [trueNfa_eq (by norm_num) (by norm_num) (by norm_num), hfull]
    have := log10_neg (a := 3 / 4) (by norm_num) (by norm_num)
    linarith
  have hneg : nfa exactGamma 0 2 1 (1 / 2) < 0 := by
    rw [j3, h3]
    have e1 : log10 (2 / Real.exp ((2 : ℕ) + 1)) = -log10 (Real.exp ((2 : ℕ) + 1) / 2) := by
      rw [← log10_inv, inv_div]
    have e2 : 0 < log10 (Real.exp ((2 : ℕ) + 1) / 2 * tailTo 2 1 j (1 / 2)) := by
      apply log10_pos
      have := mul_le_mul_of_nonneg_left ht (show 0 ≤ Real.exp ((2 : ℕ) + 1) / 2 by positivity)
      exact lt_of_lt_of_le (one_lt_quarter he) this
    rw [log10_mul (by positivity) (by linarith)] at e2
    rw [e1]
    linarith
  rw [abs_of_neg (by linarith), abs_of_pos htrue] at h'
  linarith

/-- C105, refuted: a rectangle that is found to be meaningful (a positive value) has on average less than one
false alarm. With 20 pixels, one of them aligned, and a probability of one half, 10 tests have more than 9;
the value is positive. -/
theorem nfa_meaningful_refuted : ¬ ∀ (logGamma : ℝ → ℝ) (logNT : ℝ) (n k : Nat) (p : ℝ),
    ExactGamma logGamma → 0 < p → p ≤ 1 / 2 → k ≤ n → 0 < nfa logGamma logNT n k p →
    10 ^ logNT * tailTo n k n p < 1 := by
  intro h
  have hoff := nfa_offset exactGamma_exact 1 (n := 20) (k := 1) (p := 1 / 2) (by norm_num) le_rfl
    (by norm_num) (by norm_num)
  have hfac : ((20 : ℕ).factorial : ℝ) = 2432902008176640000 := by norm_num [Nat.factorial]
  have hb1 : binom 20 (1 / 2) 1 = 20 / 2 ^ 20 := by norm_num [binom]
  have he1 : (1 : ℝ) ≤ Real.exp ((20 : ℕ) + 1) := Real.one_le_exp (by norm_num)
  have he2 : Real.exp ((20 : ℕ) + 1) < 10 ^ 15 := by
    have h1 : Real.exp 1 < 3 := lt_trans Real.exp_one_lt_d9 (by norm_num)
    have : Real.exp ((20 : ℕ) + 1) = Real.exp 1 ^ 21 := by
      rw [← Real.exp_nat_mul]; norm_num
    rw [this]
    calc Real.exp 1 ^ 21 < 3 ^ 21 := pow_lt_pow_left₀ h1 (Real.exp_pos _).le (by norm_num)
      _ < 10 ^ 15 := by norm_num
  rw [if_neg (by
    rw [hfac, hb1]
    apply not_tiny
    have h4 : (1 : ℝ) / 10 ^ 30 ≤ 1 / 2432902008176640000 * (20 / 2 ^ 20) := by norm_num
    refine le_trans h4 (mul_le_mul_of_nonneg_right ?_ (by norm_num))
    exact div_le_div_of_nonneg_right he1 (by norm_num))] at hoff
  obtain ⟨j, j1, j2, j3, -⟩ := hoff
  have htot : tailTo 20 1 20 (1 / 2) = 1 - 1 / 2 ^ 20 := by
    have h := add_pow (1 / 2 : ℝ) (1 - 1 / 2) 20
    rw [show (1 / 2 : ℝ) + (1 - 1 / 2) = 1 by ring, one_pow] at h
    have hs : ∑ i ∈ Finset.range 21, binom 20 (1 / 2) i = 1 := by
      refine Eq.trans ?_ h.symm
      refine Finset.sum_congr rfl fun i _ => ?_
      unfold binom
      ring
    have h0 : binom 20 (1 / 2) 0 = 1 / 2 ^ 20 := by norm_num [binom]
    have : (Finset.range 21 : Finset ℕ) = insert 0 (Icc 1 20) := by decide
    rw [this, Finset.sum_insert (by simp), h0] at hs
    unfold tailTo
    linarith
  have hle : tailTo 20 1 j (1 / 2) ≤ 1 := by
    have : tailTo 20 1 j (1 / 2) ≤ tailTo 20 1 20 (1 / 2) := by
      unfold tailTo
      apply Finset.sum_le_sum_of_subset_of_nonneg
      · exact Finset.Icc_subset_Icc le_rfl j2
      · intro i hi _
        exact (binom_pos (by norm_num) (by norm_num) (Finset.mem_Icc.1 hi).2).le
    rw [htot] at this
    have h20 : (0 : ℝ) < 1 / 2 ^ 20 := by positivity
    linarith
  have hpos : 0 < nfa exactGamma 1 20 1 (1 / 2) := by
    rw [j3, hfac]
    have e1 : log10 (tailTo 20 1 j (1 / 2)) ≤ 0 := by
      have := log10_mono (tailTo_pos (by norm_num) (by norm_num) j1 j2 :
        0 < tailTo 20 1 j (1 / 2)) hle
      simpa [log10] using this
    have e2 : 1 < log10 (2432902008176640000 / Real.exp ((20 : ℕ) + 1)) := by
      have h10 : log10 (10 ^ (1 : ℝ)) = 1 := log10_ten_rpow 1
      rw [Real.rpow_one] at h10
      have hlt : (100 : ℝ) ≤ 2432902008176640000 / Real.exp ((20 : ℕ) + 1) := by
        rw [le_div_iff₀ (Real.exp_pos _)]
        linarith
      have h100 : log10 100 = 2 := by
        rw [show (100 : ℝ) = 10 * 10 by norm_num, log10_mul (by norm_num) (by norm_num), h10]
        norm_num
      have := log10_mono (by norm_num) hlt
      linarith
    linarith
  have := h exactGamma 1 20 1 (1 / 2) exactGamma_exact (by norm_num) le_rfl (by norm_num) hpos
  rw [htot, Real.rpow_one] at this
  norm_num at this

end Verif.Lsd
