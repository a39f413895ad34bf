import Verif.Triangulation.Props

/-!
# When the Gauss-Newton iterations stop

The loop of `iterativeGaussNewtonTriangulateFromNViews` (triangulation.cc:168-262).
-/

namespace Verif.Triangulation

open Matrix

/-- The sum of the squares of the differences between measurements and predictions. -/
noncomputable def sumOfSquares {n : Nat} (C : Cache n) (meas : Fin n → ℝ × ℝ) (s : V) : ℝ :=
  ∑ i, (((meas i).1 - predicted C s i 0 / predicted C s i 2) ^ 2 + ((meas i).2 - predicted C s i 1 / predicted C s i 2) ^ 2)

/-- The estimates: zero, and after each iteration. -/
noncomputable def estimate {n : Nat} (ldlt : M3 → V → V) (C : Cache n) (meas : Fin n → ℝ × ℝ) (k : ℕ) : V :=
  (iterate ldlt C meas)^[k] 0

/-- What the stopping rule compares: 1000, 100, and then the sums of squares of the estimates, beginning with the
first. -/
noncomputable def compared {n : Nat} (ldlt : M3 → V → V) (C : Cache n) (meas : Fin n → ℝ × ℝ) : ℕ → ℝ
  | 0 => 1000
  | 1 => 100
  | k + 2 => sumOfSquares C meas (estimate ldlt C meas k)

theorem squaredNorm_eq {n : Nat} (C : Cache n) (meas : Fin n → ℝ × ℝ) (s : V) :
    squaredNorm (residual C meas s) = sumOfSquares C meas s := by
  unfold squaredNorm sumOfSquares residual
  refine Finset.sum_congr rfl fun i _ => ?_
  simp only
  ring

theorem loop_general {n : Nat} (ldlt : M3 → V → V) (C : Cache n) (meas : Fin n → ℝ × ℝ)
    (hd : ∀ (k : ℕ) (i : Fin n), predicted C (estimate ldlt C meas k) i 2 ≠ 0) : ∀ (m j : ℕ),
    ∃ k, j ≤ k ∧ k ≤ j + m ∧
      gnLoop ldlt C meas m (compared ldlt C meas j) (compared ldlt C meas (j + 1)) (estimate ldlt C meas j) =
        some (estimate ldlt C meas k) ∧
      (∀ i, j ≤ i → i < k → 1e-5 < compared ldlt C meas i - compared ldlt C meas (i + 1)) ∧
      (k = j + m ∨ compared ldlt C meas k - compared ldlt C meas (k + 1) ≤ 1e-5)
  | 0, j => ⟨j, le_refl _, by omega, rfl, fun i h1 h2 => by omega, Or.inl rfl⟩
  | m + 1, j => by
    by_cases hc : compared ldlt C meas j - compared ldlt C meas (j + 1) > 1e-5
    · obtain ⟨k, h1, h2, h3, h4, h5⟩ := loop_general ldlt C meas hd m (j + 1)
      refine ⟨k, by omega, by omega, ?_, ?_, ?_⟩
      · unfold gnLoop
        rw [if_pos hc, if_neg (by push Not; exact hd j), squaredNorm_eq]
        have : iterate ldlt C meas (estimate ldlt C meas j) = estimate ldlt C meas (j + 1) := by
          unfold estimate
          rw [Function.iterate_succ_apply']
        rw [this]
        exact h3
      · intro i hi1 hi2
        rcases Nat.eq_or_lt_of_le hi1 with rfl | hlt
        · exact hc
        · exact h4 i (by omega) hi2
      · rcases h5 with h5 | h5
        · exact Or.inl (by omega)
        · exact Or.inr h5
    · refine ⟨j, le_refl _, by omega, ?_, fun i h1 h2 => by omega, Or.inr (not_lt.mp hc)⟩
      unfold gnLoop
      rw [if_neg hc]

/-- **C70 (what is returned).** If no prediction has depth zero, the point is that of the estimate after `k`
iterations, `k` between 1 and 10: the first after which the compared sums have gone down by no more than 1e-5, or the
tenth.  The point is at the inverse depth of the estimate from the first camera, as the code has its position. -/
theorem gn_returns {n : Nat} (hn : 2 ≤ n) (ldlt : M3 → V → V) (meas : Fin n → ℝ × ℝ) (T_G_B : Fin n → Pose) (T_B_C : Pose)
    (hd : ∀ (k : ℕ) (i : Fin n),
      predicted (cache ⟨0, by omega⟩ T_G_B T_B_C) (estimate ldlt (cache ⟨0, by omega⟩ T_G_B T_B_C) meas k) i 2 ≠ 0) :
    ∃ k, 1 ≤ k ∧ k ≤ 10 ∧
      (∀ i, 1 ≤ i → i < k → 1e-5 < compared ldlt (cache ⟨0, by omega⟩ T_G_B T_B_C) meas i -
        compared ldlt (cache ⟨0, by omega⟩ T_G_B T_B_C) meas (i + 1)) ∧
      (k = 10 ∨ compared ldlt (cache ⟨0, by omega⟩ T_G_B T_B_C) meas k -
        compared ldlt (cache ⟨0, by omega⟩ T_G_B T_B_C) meas (k + 1) ≤ 1e-5) ∧
      ∀ s, s = estimate ldlt (cache ⟨0, by omega⟩ T_G_B T_B_C) meas k → s 2 ≠ 0 →
        (gaussNewton ldlt meas T_G_B T_B_C).2 =
          some ((1 / s 2) • ((T_B_C.inverse.mul (T_G_B ⟨0, by omega⟩).inverse).Rᵀ *ᵥ ![s 0, s 1, 1]) +
            (T_B_C.inverse.mul (T_G_B ⟨0, by omega⟩).inverse).p) := by
  obtain ⟨k, _, h2, h3, h4, h5⟩ := loop_general ldlt (cache ⟨0, by omega⟩ T_G_B T_B_C) meas hd 10 0
  have hk : 1 ≤ k := by
    rcases Nat.eq_zero_or_pos k with rfl | h
    · rcases h5 with h5 | h5
      · omega
      · exfalso
        simp only [compared] at h5
        norm_num at h5
    · exact h
  refine ⟨k, hk, by omega, fun i h1 hi => h4 i (by omega) hi, by simpa using h5, ?_⟩
  intro s hs hs2
  unfold gaussNewton
  rw [dif_neg (by omega)]
  have h0 : estimate ldlt (cache ⟨0, by omega⟩ T_G_B T_B_C) meas 0 = 0 := rfl
  simp only [compared, h0] at h3
  simp only [h3, Option.bind_some, ← hs]
  rw [if_neg hs2]
  rfl

/-- **C70 (progress).** Up to the estimate before the last but one, every iteration has made the sum of squares smaller
by more than 1e-5: the returned estimate `k` comes after a strictly falling sequence. -/
theorem gn_falls {n : Nat} (ldlt : M3 → V → V) (C : Cache n) (meas : Fin n → ℝ × ℝ) {k : ℕ}
    (h : ∀ i, 1 ≤ i → i < k → 1e-5 < compared ldlt C meas i - compared ldlt C meas (i + 1)) :
    ∀ i, i + 2 < k →
      sumOfSquares C meas (estimate ldlt C meas (i + 1)) < sumOfSquares C meas (estimate ldlt C meas i) - 1e-5 := by
  intro i hi
  have := h (i + 2) (by omega) (by omega)
  simp only [compared] at this
  linarith

/-! ### Non-vacuity -/

/-- Cameras that do not turn and do not move along their axes: all depths are 1, whatever the estimates are. -/
example : ∀ (k : ℕ) (i : Fin 2), predicted (⟨1, 0, fun _ => 1, fun _ => ![1, 0, 0]⟩ : Cache 2)
    (estimate (n := 2) (fun _ _ => ![1, 2, 3]) ⟨1, 0, fun _ => 1, fun _ => ![1, 0, 0]⟩ (fun _ => (0, 0)) k) i 2 ≠ 0 := by
  intro k i
  simp [predicted]

end Verif.Triangulation
