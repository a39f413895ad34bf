import Mathlib.Analysis.SpecialFunctions.Trigonometric.Chebyshev.RootsExtrema
import Mathlib.Analysis.SpecialFunctions.Arcosh
import Mathlib.Analysis.SpecialFunctions.Trigonometric.Series
import Mathlib.Analysis.Complex.ExponentialBounds
import Mathlib.Tactic.LinearCombination
import Mathlib.Tactic.FieldSimp

/-!
# Sum of the reciprocal squared cosines

Facts on Chebyshev polynomials used for the time steps of the fast explicit diffusion. Nothing here is about the code.
-/

namespace Verif.Kaze.Fed

open Polynomial Polynomial.Chebyshev Real

/-- The first three coefficients of a product of linear factors. -/
theorem coeff_prod_linear (s : Multiset ℝ) (h : ∀ r ∈ s, r ≠ 0) :
    let P := (s.map fun r => X - C r).prod
    P.coeff 0 ≠ 0 ∧ P.coeff 1 = -P.coeff 0 * (s.map fun r => 1 / r).sum ∧
      2 * P.coeff 2 = P.coeff 0 * ((s.map fun r => 1 / r).sum ^ 2 - (s.map fun r => 1 / r ^ 2).sum) := by
  induction s using Multiset.induction_on with
  | empty => simp [coeff_one]
  | cons a s ih =>
    obtain ⟨h0, h1, h2⟩ := ih fun r hr => h r (Multiset.mem_cons_of_mem hr)
    have ha : a ≠ 0 := h a (Multiset.mem_cons_self a s)
    simp only [Multiset.map_cons, Multiset.prod_cons, Multiset.sum_cons]
    set P := (s.map fun r => X - C r).prod
    have e0 : ((X - C a) * P).coeff 0 = -a * P.coeff 0 := by simp [sub_mul]
    have e1 : ((X - C a) * P).coeff 1 = P.coeff 0 - a * P.coeff 1 := by
      rw [sub_mul, coeff_sub, coeff_C_mul, coeff_X_mul P 0]
    have e2 : ((X - C a) * P).coeff 2 = P.coeff 1 - a * P.coeff 2 := by
      rw [sub_mul, coeff_sub, coeff_C_mul, coeff_X_mul P 1]
    rw [e0, e1, e2]
    refine ⟨mul_ne_zero (neg_ne_zero.2 ha) h0, ?_, ?_⟩
    · rw [h1]; field_simp; ring
    · have : 2 * (P.coeff 1 - a * P.coeff 2) = 2 * P.coeff 1 - a * (2 * P.coeff 2) := by ring
      rw [this, h2, h1]; field_simp; ring

/-- The roots of the polynomial of odd degree. -/
noncomputable def root (n k : Nat) : ℝ := cos ((2 * (k : ℝ) + 1) * π / (2 * ((2 * n + 1 : Nat) : ℝ)))

theorem root_mid (n : Nat) : root n n = 0 := by
  unfold root
  rw [cos_eq_zero_iff]
  exact ⟨0, by push_cast; field_simp; ring⟩

theorem root_refl {n k : Nat} (h : k ≤ 2 * n) : root n (2 * n - k) = -root n k := by
  unfold root
  rw [← cos_pi_sub]
  congr 1
  push_cast [h]
  field_simp
  ring

theorem root_inj (n : Nat) : Set.InjOn (root n) (Finset.range (2 * n + 1)) := by
  exact (Finset.range (2 * n + 1)).nodup_map_iff_injOn.mp (roots_T_real_nodup (2 * n + 1))

theorem root_ne_zero {n k : Nat} (h : k < 2 * n + 1) (hk : k ≠ n) : root n k ≠ 0 := by
  intro e
  rw [← root_mid n] at e
  exact hk (root_inj n (by simpa using h) (by simp; omega) e)

theorem root_pos {n k : Nat} (h : k < n) : 0 < root n k := by
  unfold root
  refine cos_pos_of_mem_Ioo ⟨?_, ?_⟩
  · have : 0 < (2 * (k : ℝ) + 1) * π / (2 * ((2 * n + 1 : Nat) : ℝ)) := by positivity
    linarith [pi_pos]
  · have hk : (k : ℝ) + 1 ≤ n := by exact_mod_cast h
    rw [div_lt_div_iff₀ (by positivity) (by norm_num)]
    push_cast
    nlinarith [pi_pos]

/-- The other roots. -/
noncomputable def others (n : Nat) : Multiset ℝ := (((Finset.range (2 * n + 1)).erase n).val).map (root n)

theorem T_factor (n : Nat) :
    T ℝ ((2 * n + 1 : Nat) : ℤ) = C (T ℝ ((2 * n + 1 : Nat) : ℤ)).leadingCoeff * (X * ((others n).map fun r => X - C r).prod) := by
  have hr : (T ℝ ((2 * n + 1 : Nat) : ℤ)).roots = (Finset.range (2 * n + 1)).val.map (root n) := by
    rw [roots_T_real, Finset.image_val_of_injOn]
    · rfl
    · exact root_inj n
  have hc : (T ℝ ((2 * n + 1 : Nat) : ℤ)).roots.card = (T ℝ ((2 * n + 1 : Nat) : ℤ)).natDegree := by
    rw [hr, natDegree_T]
    simp only [Multiset.card_map, Finset.card_val, Finset.card_range]
    rfl
  have := C_leadingCoeff_mul_prod_multiset_X_sub_C hc
  rw [hr] at this
  have hs : (Finset.range (2 * n + 1)).val = n ::ₘ ((Finset.range (2 * n + 1)).erase n).val := by
    rw [Finset.erase_val, Multiset.cons_erase]
    simp; omega
  rw [hs, Multiset.map_cons, Multiset.map_cons, Multiset.prod_cons, root_mid] at this
  simp only [C_0, sub_zero] at this
  exact this.symm

theorem others_ne_zero (n : Nat) : ∀ r ∈ others n, r ≠ 0 := by
  intro r hr
  simp only [others, Multiset.mem_map, Finset.mem_val, Finset.mem_erase, Finset.mem_range] at hr
  obtain ⟨k, ⟨hk, hl⟩, rfl⟩ := hr
  exact root_ne_zero hl hk

theorem T_coeff_two (m : ℤ) : 2 * (T ℝ m).coeff 2 = -(m : ℝ) ^ 2 * (T ℝ m).coeff 0 := by
  have h := iterate_derivative_T_eval_zero_recurrence (R := ℝ) m 0
  simp only [← coeff_zero_eq_eval_zero, coeff_iterate_derivative] at h
  simpa [Nat.descFactorial] using h

theorem T_coeff_three (m : ℤ) : 6 * (T ℝ m).coeff 3 = -((m : ℝ) ^ 2 - 1) * (T ℝ m).coeff 1 := by
  have h := iterate_derivative_T_eval_zero_recurrence (R := ℝ) m 1
  simp only [← coeff_zero_eq_eval_zero, coeff_iterate_derivative] at h
  simpa [Nat.descFactorial] using h

theorem sum_others (n : Nat) : ((others n).map fun r => 1 / r ^ 2).sum = 4 * (n : ℝ) * (n + 1) / 3 := by
  obtain ⟨h0, h1, h2⟩ := coeff_prod_linear (others n) (others_ne_zero n)
  have hT := T_factor n
  set Q := ((others n).map fun r => X - C r).prod
  set L := (T ℝ ((2 * n + 1 : Nat) : ℤ)).leadingCoeff with hL
  have hL0 : L ≠ 0 := by
    rw [hL, ne_eq, leadingCoeff_eq_zero]
    intro e
    have := natDegree_T (R := ℝ) ((2 * n + 1 : Nat) : ℤ)
    rw [e, natDegree_zero] at this
    simp at this
    omega
  have c0 : (T ℝ ((2 * n + 1 : Nat) : ℤ)).coeff 0 = 0 := by rw [hT]; simp
  have c1 : (T ℝ ((2 * n + 1 : Nat) : ℤ)).coeff 1 = L * Q.coeff 0 := by
    rw [hT, coeff_C_mul, coeff_X_mul Q 0]
  have c2 : (T ℝ ((2 * n + 1 : Nat) : ℤ)).coeff 2 = L * Q.coeff 1 := by
    rw [hT, coeff_C_mul, coeff_X_mul Q 1]
  have c3 : (T ℝ ((2 * n + 1 : Nat) : ℤ)).coeff 3 = L * Q.coeff 2 := by
    rw [hT, coeff_C_mul, coeff_X_mul Q 2]
  have k2 := T_coeff_two ((2 * n + 1 : Nat) : ℤ)
  have k3 := T_coeff_three ((2 * n + 1 : Nat) : ℤ)
  rw [c2, c0] at k2
  rw [c3, c1] at k3
  have q1 : Q.coeff 1 = 0 := by
    have : L * Q.coeff 1 = 0 := by linarith
    exact (mul_eq_zero.1 this).resolve_left hL0
  have s1 : ((others n).map fun r => 1 / r).sum = 0 := by
    rw [q1] at h1
    have : Q.coeff 0 * ((others n).map fun r => 1 / r).sum = 0 := by linarith
    exact (mul_eq_zero.1 this).resolve_left h0
  rw [s1] at h2
  have hm : Q.coeff 0 * (((others n).map fun r => 1 / r ^ 2).sum - 4 * (n : ℝ) * (n + 1) / 3) = 0 := by
    have k3' : 6 * Q.coeff 2 = -((2 * (n : ℝ) + 1) ^ 2 - 1) * Q.coeff 0 := by
      refine mul_left_cancel₀ hL0 ?_
      push_cast at k3
      linear_combination k3
    linear_combination h2 - k3' / 3
  have := (mul_eq_zero.1 hm).resolve_left h0
  linarith

/-- The sum over the first half of the roots. -/
theorem sum_root (n : Nat) : ((List.range n).map fun k => 1 / root n k ^ 2).sum = 2 * (n : ℝ) * (n + 1) / 3 := by
  have h := sum_others n
  have e : ((others n).map fun r => 1 / r ^ 2).sum = ∑ k ∈ (Finset.range (2 * n + 1)).erase n, 1 / root n k ^ 2 := by
    rw [others, Multiset.map_map]; rfl
  have e2 : (Finset.range (2 * n + 1)).erase n = Finset.range n ∪ (Finset.range n).image fun k => 2 * n - k := by
    ext k
    simp only [Finset.mem_erase, Finset.mem_range, Finset.mem_union, Finset.mem_image]
    constructor
    · intro ⟨a, b⟩
      by_cases c : k < n
      · exact .inl c
      · exact .inr ⟨2 * n - k, by omega, by omega⟩
    · rintro (a | ⟨j, a, rfl⟩) <;> omega
  have hd : Disjoint (Finset.range n) ((Finset.range n).image fun k => 2 * n - k) := by
    rw [Finset.disjoint_left]
    intro k hk hk'
    simp only [Finset.mem_range, Finset.mem_image] at hk hk'
    obtain ⟨j, hj, rfl⟩ := hk'
    omega
  rw [e, e2, Finset.sum_union hd, Finset.sum_image] at h
  · have : ∑ k ∈ Finset.range n, 1 / root n (2 * n - k) ^ 2 = ∑ k ∈ Finset.range n, 1 / root n k ^ 2 := by
      refine Finset.sum_congr rfl fun k hk => ?_
      rw [root_refl (by simp at hk; omega)]
      simp
    rw [this] at h
    have l : ((List.range n).map fun k => 1 / root n k ^ 2).sum = ∑ k ∈ Finset.range n, 1 / root n k ^ 2 := by
      rw [← List.sum_toFinset _ List.nodup_range, List.toFinset_range]
    rw [l]
    linarith
  · intro a ha b hb hab
    simp only [Finset.coe_range, Set.mem_Iio] at ha hb
    simp only at hab
    omega

theorem erase_eq (n : Nat) :
    (Finset.range (2 * n + 1)).erase n = Finset.range n ∪ (Finset.range n).image fun k => 2 * n - k := by
  ext k
  simp only [Finset.mem_erase, Finset.mem_range, Finset.mem_union, Finset.mem_image]
  constructor
  · intro ⟨a, b⟩
    by_cases c : k < n
    · exact .inl c
    · exact .inr ⟨2 * n - k, by omega, by omega⟩
  · rintro (a | ⟨j, a, rfl⟩) <;> omega

theorem prod_others (n : Nat) (x : ℝ) :
    ((others n).map fun r => x - r).prod = ∏ k ∈ Finset.range n, (x ^ 2 - root n k ^ 2) := by
  have e : ((others n).map fun r => x - r).prod = ∏ k ∈ (Finset.range (2 * n + 1)).erase n, (x - root n k) := by
    rw [others, Multiset.map_map]; rfl
  have hd : Disjoint (Finset.range n) ((Finset.range n).image fun k => 2 * n - k) := by
    rw [Finset.disjoint_left]
    intro k hk hk'
    simp only [Finset.mem_range, Finset.mem_image] at hk hk'
    obtain ⟨j, hj, rfl⟩ := hk'
    omega
  rw [e, erase_eq, Finset.prod_union hd, Finset.prod_image, ← Finset.prod_mul_distrib]
  · refine Finset.prod_congr rfl fun k hk => ?_
    rw [root_refl (by simp at hk; omega)]
    ring
  · intro a ha b hb hab
    simp only [Finset.coe_range, Set.mem_Iio] at ha hb
    simp only at hab
    omega

theorem eval_T (n : Nat) (x : ℝ) : (T ℝ ((2 * n + 1 : Nat) : ℤ)).eval x =
    (T ℝ ((2 * n + 1 : Nat) : ℤ)).leadingCoeff * (x * ∏ k ∈ Finset.range n, (x ^ 2 - root n k ^ 2)) := by
  conv_lhs => rw [T_factor n]
  rw [eval_mul, eval_C, eval_mul, eval_X, eval_multiset_prod, Multiset.map_map, ← prod_others]
  simp

theorem abs_lead (n : Nat) :
    |(T ℝ ((2 * n + 1 : Nat) : ℤ)).leadingCoeff * ∏ k ∈ Finset.range n, (-root n k ^ 2)| = 2 * n + 1 := by
  have h1 : (T ℝ ((2 * n + 1 : Nat) : ℤ)).coeff 1 =
      (T ℝ ((2 * n + 1 : Nat) : ℤ)).leadingCoeff * ∏ k ∈ Finset.range n, (-root n k ^ 2) := by
    conv_lhs => rw [T_factor n]
    rw [coeff_C_mul, coeff_X_mul _ 0, coeff_zero_eq_eval_zero, eval_multiset_prod, Multiset.map_map]
    have := prod_others n 0
    simp only [ne_eq, OfNat.ofNat_ne_zero, not_false_eq_true, zero_pow, zero_sub] at this
    rw [← this]
    simp
  have h2 : (T ℝ ((2 * n + 1 : Nat) : ℤ)).coeff 1 = (2 * n + 1) * (n : ℤ).negOnePow := by
    have d := coeff_derivative (T ℝ ((2 * n + 1 : Nat) : ℤ)) 0
    rw [T_derivative_eq_U] at d
    have : (((2 * n + 1 : Nat) : ℤ) - 1) = 2 * (n : ℤ) := by push_cast; ring
    rw [this, coeff_zero_eq_eval_zero, eval_mul, U_eval_two_mul_zero] at d
    simp only [eval_intCast] at d
    push_cast at d ⊢
    linarith
  rw [← h1, h2, abs_mul]
  have : |(((n : ℤ).negOnePow : ℤ) : ℝ)| = 1 := by
    rcases Int.units_eq_one_or (n : ℤ).negOnePow with e | e <;> rw [e] <;> simp
  rw [this, mul_one, abs_of_pos (by positivity)]

theorem abs_cos_odd (n : Nat) (θ : ℝ) : |cos ((2 * n + 1) * θ)| ≤ (2 * n + 1) * |cos θ| := by
  induction n with
  | zero => simp
  | succ n ih =>
    have e : (2 * ((n + 1 : Nat) : ℝ) + 1) * θ = (2 * n + 1) * θ + 2 * θ := by push_cast; ring
    rw [e, cos_add, sin_two_mul]
    calc |cos ((2 * n + 1) * θ) * cos (2 * θ) - sin ((2 * n + 1) * θ) * (2 * sin θ * cos θ)|
        ≤ |cos ((2 * n + 1) * θ) * cos (2 * θ)| + |sin ((2 * n + 1) * θ) * (2 * sin θ * cos θ)| := abs_sub _ _
      _ ≤ (2 * n + 1) * |cos θ| * 1 + 1 * (2 * 1 * |cos θ|) := by
          simp only [abs_mul, abs_two]
          gcongr
          · exact abs_cos_le_one _
          · exact abs_sin_le_one _
          · exact abs_sin_le_one _
      _ = _ := by push_cast; ring

/-- The polynomial near the interval, for degrees that are not too large. -/
theorem abs_eval_T_le {n : Nat} (hn : n ≠ 0) {x : ℝ} (hx : 0 < x) (h : (2 * (n : ℝ) + 1) ^ 2 * (x ^ 2 - 1) ≤ 2) :
    |(T ℝ ((2 * n + 1 : Nat) : ℤ)).eval x| ≤ (2 * n + 1) * x := by
  rcases le_total x 1 with h1 | h1
  · have hc : cos (arccos x) = x := cos_arccos (by linarith) h1
    have := T_real_cos (arccos x) ((2 * n + 1 : Nat) : ℤ)
    rw [hc] at this
    rw [this]
    have h3 := abs_cos_odd n (arccos x)
    rw [hc, abs_of_pos hx] at h3
    push_cast
    exact h3
  · have hc : cosh (arcosh x) = x := cosh_arcosh h1
    have := T_real_cosh (arcosh x) ((2 * n + 1 : Nat) : ℤ)
    rw [hc] at this
    rw [this, abs_of_pos (cosh_pos _)]
    have hs : arcosh x ^ 2 ≤ x ^ 2 - 1 := by
      have h0 : 0 ≤ arcosh x := arcosh_nonneg h1
      have h2 : arcosh x ≤ sinh (arcosh x) := self_le_sinh_iff.2 h0
      have h4 := cosh_sq (arcosh x)
      rw [hc] at h4
      nlinarith
    have hn1 : (1 : ℝ) ≤ n := by exact_mod_cast Nat.one_le_iff_ne_zero.2 hn
    push_cast
    calc cosh ((2 * (n : ℝ) + 1) * arcosh x) ≤ exp (((2 * (n : ℝ) + 1) * arcosh x) ^ 2 / 2) := cosh_le_exp_half_sq _
      _ ≤ exp 1 := by
          apply exp_le_exp.2
          rw [mul_pow]
          nlinarith [mul_le_mul_of_nonneg_left hs (sq_nonneg (2 * (n : ℝ) + 1))]
      _ ≤ 3 := by linarith [exp_one_lt_d9]
      _ ≤ (2 * n + 1) * x := by nlinarith

/-- The product that decides on the stability of a cycle. -/
theorem abs_prod_root {n : Nat} (hn : n ≠ 0) {y : ℝ} (h0 : 0 ≤ y) (h1 : (2 * (n : ℝ) + 1) ^ 2 * (y - 1) ≤ 2) :
    |((List.range n).map fun k => 1 - y / root n k ^ 2).prod| ≤ 1 := by
  have l : ((List.range n).map fun k => 1 - y / root n k ^ 2).prod = ∏ k ∈ Finset.range n, (1 - y / root n k ^ 2) := by
    rw [← List.prod_toFinset _ List.nodup_range, List.toFinset_range]
  rw [l]
  rcases h0.eq_or_lt with rfl | hy
  · simp
  have hx : 0 < √y := sqrt_pos.2 hy
  have hx2 : √y ^ 2 = y := sq_sqrt h0
  have hT := eval_T n (√y)
  have hA := abs_lead n
  set L := (T ℝ ((2 * n + 1 : Nat) : ℤ)).leadingCoeff
  have hp : ∏ k ∈ Finset.range n, (√y ^ 2 - root n k ^ 2) =
      (∏ k ∈ Finset.range n, (-root n k ^ 2)) * ∏ k ∈ Finset.range n, (1 - y / root n k ^ 2) := by
    rw [← Finset.prod_mul_distrib]
    refine Finset.prod_congr rfl fun k hk => ?_
    have := (root_pos (n := n) (by simpa using hk)).ne'
    rw [hx2]
    field_simp
    ring
  rw [hp] at hT
  have hb : |(T ℝ ((2 * n + 1 : Nat) : ℤ)).eval (√y)| ≤ (2 * n + 1) * √y := abs_eval_T_le hn hx (by rwa [hx2])
  rw [hT] at hb
  have e : L * (√y * ((∏ k ∈ Finset.range n, (-root n k ^ 2)) * ∏ k ∈ Finset.range n, (1 - y / root n k ^ 2))) =
      (L * ∏ k ∈ Finset.range n, (-root n k ^ 2)) * (√y * ∏ k ∈ Finset.range n, (1 - y / root n k ^ 2)) := by ring
  rw [e, abs_mul, hA, abs_mul, abs_of_pos hx] at hb
  have hpos : 0 < (2 * (n : ℝ) + 1) * √y := by positivity
  have : (2 * (n : ℝ) + 1) * √y * |∏ k ∈ Finset.range n, (1 - y / root n k ^ 2)| ≤ (2 * (n : ℝ) + 1) * √y * 1 := by
    linarith
  exact le_of_mul_le_mul_left this hpos

end Verif.Kaze.Fed
