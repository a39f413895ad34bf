import Verif.Lsd.GammaProps
import Verif.Lsd.NfaProps

/-!
# The number of false alarms with the logarithms of factorials of the code (C142)
-/

open scoped Classical

namespace Verif.Lsd.Gamma

theorem first_term_close {n k : Nat} {p : ℝ} (h0 : 0 < p) (h1 : p < 1) (hk : k ≤ n) :
    ∃ d : ℝ, |d| ≤ 2e-8 ∧
    Real.exp ((n + 1) - logGamma (k + 1) - logGamma ((n - k : Nat) + 1) + k * Real.log p +
      (n - k : Nat) * Real.log (1 - p)) = Real.exp d * (Real.exp (n + 1) / n.factorial) * binom n p k := by
  have hf := first_term exactGamma_exact h0 h1 hk
  rw [exactGamma_exact, exactGamma_exact] at hf
  have a1 := logGamma_close k
  have a2 := logGamma_close (n - k)
  refine ⟨Real.log k.factorial - logGamma (k + 1) + (Real.log (n - k).factorial - logGamma ((n - k : Nat) + 1)),
    ?_, ?_⟩
  · rw [abs_le] at *
    norm_num at a1 a2 ⊢
    constructor <;> linarith
  · rw [mul_assoc, ← hf, ← Real.exp_add]
    congr 1
    ring

/-- Shifting a term by a factor near one shifts its logarithm by next to nothing. -/
theorem shift_small {d : ℝ} (hd : |d| ≤ 2e-8) : |d / Real.log 10| ≤ 1e-8 := by
  have h10 : (2 : ℝ) ≤ Real.log 10 := by
    have h1 : Real.exp 1 ≤ 2.7182818284590453 := exp_one_hi
    have h2 : Real.exp 2 ≤ 10 := by
      rw [show (2 : ℝ) = 1 + 1 by norm_num, Real.exp_add]
      nlinarith [Real.exp_pos 1]
    exact (Real.le_log_iff_exp_le (by norm_num)).2 h2
  rw [abs_div, abs_of_pos (show 0 < Real.log 10 by linarith), div_le_iff₀ (by linarith)]
  norm_num at hd ⊢
  linarith

/-- C142: what `nfa` computes with the logarithms of factorials of the code: up to one part in a hundred
million it is the logarithm, with the sign changed, of the number of tests times a sum of probabilities from
`k` pixels on, less the logarithm of `e ^ (n + 1) / n!`. What is left out of the sum is at most a tenth of the
value times the sum. Only if the first term is next to zero, that term alone counts, and only if more pixels
are aligned than are expected. -/
theorem nfa_close (logNT : ℝ) {n k : Nat} {p : ℝ} (h0 : 0 < p) (h1 : p ≤ 1 / 2) (hk : 0 < k) (hkn : k < n) :
    (∃ j, k ≤ j ∧ j ≤ n ∧
      |nfa logGamma logNT n k p -
        (-log10 (tailTo n k j p) - logNT + log10 (n.factorial / Real.exp (n + 1)))| ≤ 1e-8 ∧
      tailTo n k n p - tailTo n k j p ≤ 1 / 10 * |nfa logGamma logNT n k p| * tailTo n k j p) ∨
    (Real.exp (n + 1) / n.factorial * binom n p k < 1 / 10 ^ 29 ∧
      if n * p < k then |nfa logGamma logNT n k p -
        (-log10 (binom n p k) - logNT + log10 (n.factorial / Real.exp (n + 1)))| ≤ 1e-8
      else nfa logGamma logNT n k p = -logNT) := by
  obtain ⟨d, hd, hterm⟩ := first_term_close h0 (show p < 1 by linarith) hkn.le
  have hF0 : (0 : ℝ) < Real.exp (n + 1) / n.factorial :=
    div_pos (Real.exp_pos _) (by exact_mod_cast n.factorial_pos)
  obtain ⟨F, hFe⟩ : ∃ F, F = Real.exp d * (Real.exp (n + 1) / n.factorial) := ⟨_, rfl⟩
  rw [← hFe] at hterm
  have hF : 0 < F := by rw [hFe]; exact mul_pos (Real.exp_pos _) hF0
  have hlF : log10 F = d / Real.log 10 - log10 (n.factorial / Real.exp (n + 1)) := by
    have hinv : log10 (n.factorial / Real.exp (n + 1)) = -log10 (Real.exp (n + 1) / n.factorial) := by
      rw [← log10_inv, inv_div]
    rw [hFe, log10_mul (Real.exp_pos _) hF0, hinv]
    simp only [log10, Real.log_exp]
    ring
  have hval : nfa logGamma logNT n k p =
      if doubleEqual (F * binom n p k) 0 then
        (if n * p < k then -log10 (F * binom n p k) - logNT else -logNT)
      else -log10 (nfaLoop n (p / (1 - p)) logNT (n - k) (k + 1) (F * binom n p k) (F * binom n p k)) - logNT := by
    rw [nfa, if_neg (by omega), if_neg (by omega)]
    simp only
    rw [← hterm]
    simp only [log10, Real.log_exp, neg_div]
  have hsmall := shift_small hd
  by_cases hdz : doubleEqual (F * binom n p k) 0
  · right
    have hb := binom_pos h0 (show p < 1 by linarith) hkn.le
    constructor
    · by_contra hge
      rw [not_lt] at hge
      refine not_tiny ?_ hdz
      have he : 1 / 10 ≤ Real.exp d := by
        have := Real.add_one_le_exp d
        rw [abs_le] at hd
        norm_num at hd
        linarith
      rw [hFe, mul_assoc]
      calc (1 : ℝ) / 10 ^ 30 = 1 / 10 * (1 / 10 ^ 29) := by norm_num
        _ ≤ Real.exp d * (Real.exp (n + 1) / n.factorial * binom n p k) :=
          mul_le_mul he hge (by positivity) (Real.exp_pos _).le
    · rw [if_pos hdz] at hval
      split_ifs with hc
      · rw [if_pos hc, log10_mul hF hb, hlF] at hval
        rw [hval, show -(d / Real.log 10 - log10 (n.factorial / Real.exp (n + 1)) + log10 (binom n p k)) - logNT -
          (-log10 (binom n p k) - logNT + log10 (n.factorial / Real.exp (n + 1))) = -(d / Real.log 10) by ring,
          abs_neg]
        exact hsmall
      · rw [if_neg hc] at hval
        exact hval
  · left
    rw [if_neg hdz] at hval
    obtain ⟨j, j1, j2, j3, j4⟩ := nfaLoop_spec (n := n) (logNT := logNT) h0 h1 hF hk (n - k) k le_rfl (by omega)
    rw [tailTo_self] at j3
    rw [j3] at hval
    refine ⟨j, j1, j2, ?_, ?_⟩
    · rw [hval, log10_mul hF (tailTo_pos h0 (by linarith) j1 j2), hlF,
        show -(d / Real.log 10 - log10 (n.factorial / Real.exp (n + 1)) + log10 (tailTo n k j p)) - logNT -
          (-log10 (tailTo n k j p) - logNT + log10 (n.factorial / Real.exp (n + 1))) = -(d / Real.log 10) by ring,
        abs_neg]
      exact hsmall
    · rw [hval]
      exact j4

/-- The sum of all probabilities but the first. -/
theorem tail_twenty : tailTo 20 1 20 (1 / 2) = 1 - 1 / 2 ^ 20 := by
  have h := add_pow (1 / 2 : ℝ) (1 - 1 / 2) 20
  rw [show (1 / 2 : ℝ) + (1 - 1 / 2) = 1 by ring, one_pow] at h
  have hs : ∑ i ∈ Finset.range 21, binom 20 (1 / 2) i = 1 := by
    refine Eq.trans ?_ h.symm
    refine Finset.sum_congr rfl fun i _ => ?_
    unfold binom
    ring
  have h0 : binom 20 (1 / 2) 0 = 1 / 2 ^ 20 := by norm_num [binom]
  have : (Finset.range 21 : Finset ℕ) = insert 0 (Finset.Icc 1 20) := by decide
  rw [this, Finset.sum_insert (by simp), h0] at hs
  unfold tailTo
  linarith

theorem exp_twenty : (1 : ℝ) ≤ Real.exp ((20 : ℕ) + 1) ∧ Real.exp ((20 : ℕ) + 1) < 10 ^ 15 := by
  refine ⟨Real.one_le_exp (by norm_num), ?_⟩
  have h1 : Real.exp 1 < 3 := lt_trans Real.exp_one_lt_d9 (by norm_num)
  have : Real.exp ((20 : ℕ) + 1) = Real.exp 1 ^ 21 := by
    rw [← Real.exp_nat_mul]; norm_num
  rw [this]
  calc Real.exp 1 ^ 21 < 3 ^ 21 := pow_lt_pow_left₀ h1 (Real.exp_pos _).le (by norm_num)
    _ < 10 ^ 15 := by norm_num

/-- With 20 pixels one of which is aligned the first term is not next to zero. -/
theorem first_twenty :
    ¬ Real.exp ((20 : ℕ) + 1) / (20 : ℕ).factorial * binom 20 (1 / 2) 1 < 1 / 10 ^ 29 := by
  have hfac : ((20 : ℕ).factorial : ℝ) = 2432902008176640000 := by norm_num [Nat.factorial]
  have hb1 : binom 20 (1 / 2) 1 = 20 / 2 ^ 20 := by norm_num [binom]
  rw [hfac, hb1, not_lt]
  have h4 : (1 : ℝ) / 10 ^ 29 ≤ 1 / 2432902008176640000 * (20 / 2 ^ 20) := by norm_num
  refine le_trans h4 (mul_le_mul_of_nonneg_right ?_ (by norm_num))
  exact div_le_div_of_nonneg_right exp_twenty.1 (by norm_num)

/-- C142, refuted: a rectangle that the code finds to be meaningful (a positive value) has on average less than
one false alarm. With 20 pixels, one of them aligned, and a probability of one half, 10 tests have more than
9 false alarms; the value is positive, with `log_gamma` as it is. -/
theorem code_meaningful_refuted : ¬ ∀ (logNT : ℝ) (n k : Nat) (p : ℝ),
    0 < p → p ≤ 1 / 2 → k ≤ n → 0 < nfa logGamma logNT n k p → 10 ^ logNT * tailTo n k n p < 1 := by
  intro h
  have hfac : ((20 : ℕ).factorial : ℝ) = 2432902008176640000 := by norm_num [Nat.factorial]
  rcases nfa_close 1 (n := 20) (k := 1) (p := 1 / 2) (by norm_num) le_rfl (by norm_num) (by norm_num) with
    ⟨j, j1, j2, j3, -⟩ | ⟨h', -⟩
  · have hle : tailTo 20 1 j (1 / 2) ≤ 1 := by
      have : tailTo 20 1 j (1 / 2) ≤ tailTo 20 1 20 (1 / 2) := by
        unfold tailTo
        apply Finset.sum_le_sum_of_subset_of_nonneg
        · exact Finset.Icc_subset_Icc le_rfl j2
        · intro i hi _
          exact (binom_pos (by norm_num) (by norm_num) (Finset.mem_Icc.1 hi).2).le
      rw [tail_twenty] at this
      have h20 : (0 : ℝ) < 1 / 2 ^ 20 := by positivity
      linarith
    have e1 : log10 (tailTo 20 1 j (1 / 2)) ≤ 0 := by
      have := log10_mono (tailTo_pos (by norm_num) (by norm_num) j1 j2 :
        0 < tailTo 20 1 j (1 / 2)) hle
      simpa [log10] using this
    have e2 : 2 ≤ log10 (2432902008176640000 / Real.exp ((20 : ℕ) + 1)) := by
      have h10 : log10 (10 ^ (1 : ℝ)) = 1 := log10_ten_rpow 1
      rw [Real.rpow_one] at h10
      have hlt : (100 : ℝ) ≤ 2432902008176640000 / Real.exp ((20 : ℕ) + 1) := by
        rw [le_div_iff₀ (Real.exp_pos _)]
        linarith [exp_twenty.2]
      have h100 : log10 100 = 2 := by
        rw [show (100 : ℝ) = 10 * 10 by norm_num, log10_mul (by norm_num) (by norm_num), h10]
        norm_num
      have := log10_mono (by norm_num) hlt
      linarith
    rw [hfac, abs_le] at j3
    have hpos : 0 < nfa logGamma 1 20 1 (1 / 2) := by
      have := j3.1
      norm_num at this e2 e1
      linarith
    have := h 1 20 1 (1 / 2) (by norm_num) le_rfl (by norm_num) hpos
    rw [tail_twenty, Real.rpow_one] at this
    norm_num at this
  · exact first_twenty h'

/-- The hypotheses of `nfa_close` are met, and the loop is reached. -/
example : ∃ (n k : Nat) (p : ℝ), 0 < p ∧ p ≤ 1 / 2 ∧ 0 < k ∧ k < n ∧
    ¬ Real.exp (n + 1) / n.factorial * binom n p k < 1 / 10 ^ 29 :=
  ⟨20, 1, 1 / 2, by norm_num, le_rfl, by norm_num, by norm_num, first_twenty⟩

/-- Both formulas are used: for 4! the one of Lanczos, for 20! the one of Windschitl. -/
example : logGamma ((4 : ℕ) + 1) = lanczos ((4 : ℕ) + 1) ∧ logGamma ((20 : ℕ) + 1) = windschitl ((20 : ℕ) + 1) ∧
    |logGamma ((4 : ℕ) + 1) - Real.log 24| ≤ 1e-8 := by
  refine ⟨?_, ?_, ?_⟩
  · rw [logGamma, if_neg (by norm_num)]
  · rw [logGamma, if_pos (by norm_num)]
  · have := logGamma_close 4
    norm_num [Nat.factorial] at this ⊢
    exact this

end Verif.Lsd.Gamma
