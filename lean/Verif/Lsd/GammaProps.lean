import Mathlib.Analysis.SpecialFunctions.Stirling
import Mathlib.Analysis.Complex.ExponentialBounds
import Mathlib.Analysis.Real.Pi.Bounds
import Verif.Lsd.Gamma

namespace Verif.Lsd.Gamma

open Filter Topology

/-! ### Stirling's series with bounds -/

/-- Two terms of Stirling's series. -/
noncomputable def low (x : ℝ) : ℝ := 1 / (12 * x) - 1 / (360 * x ^ 3)

/-- Three terms of Stirling's series. -/
noncomputable def high (x : ℝ) : ℝ := 1 / (12 * x) - 1 / (360 * x ^ 3) + 1 / (1260 * x ^ 5)

theorem step_low {x : ℝ} (hx : 1 ≤ x) : low x - low (x + 1) ≤
    1 / 3 * (1 / (2 * x + 1)) ^ 2 + 1 / 5 * ((1 / (2 * x + 1)) ^ 2) ^ 2 := by
  unfold low
  have h0 : x ≠ 0 := by positivity
  have h1 : x + 1 ≠ 0 := by positivity
  have h2 : 2 * x + 1 ≠ 0 := by positivity
  have h : 1 / 3 * (1 / (2 * x + 1)) ^ 2 + 1 / 5 * ((1 / (2 * x + 1)) ^ 2) ^ 2 -
      (1 / (12 * x) - 1 / (360 * x ^ 3) - (1 / (12 * (x + 1)) - 1 / (360 * (x + 1) ^ 3))) =
      (1 + 11 * x + 21 * x ^ 2 + 20 * x ^ 3 + 10 * x ^ 4) / (360 * x ^ 3 * (x + 1) ^ 3 * (2 * x + 1) ^ 4) := by
    field_simp
    ring
  have : 0 ≤ (1 + 11 * x + 21 * x ^ 2 + 20 * x ^ 3 + 10 * x ^ 4) / (360 * x ^ 3 * (x + 1) ^ 3 * (2 * x + 1) ^ 4) := by
    positivity
  linarith

theorem step_high {x : ℝ} (hx : 1 ≤ x) :
    1 / 3 * (1 / (2 * x + 1)) ^ 2 + 1 / 5 * ((1 / (2 * x + 1)) ^ 2) ^ 2 +
      1 / 28 * ((1 / (2 * x + 1)) ^ 2) ^ 2 / (x * (x + 1)) ≤ high x - high (x + 1) := by
  unfold high
  have h0 : x ≠ 0 := by positivity
  have h1 : x + 1 ≠ 0 := by positivity
  have h2 : 2 * x + 1 ≠ 0 := by positivity
  have h : (1 / (12 * x) - 1 / (360 * x ^ 3) + 1 / (1260 * x ^ 5) -
      (1 / (12 * (x + 1)) - 1 / (360 * (x + 1) ^ 3) + 1 / (1260 * (x + 1) ^ 5))) -
      (1 / 3 * (1 / (2 * x + 1)) ^ 2 + 1 / 5 * ((1 / (2 * x + 1)) ^ 2) ^ 2 +
      1 / 28 * ((1 / (2 * x + 1)) ^ 2) ^ 2 / (x * (x + 1))) =
      (2 + 26 * x + 141 * x ^ 2 + 393 * x ^ 3 + 604 * x ^ 4 + 489 * x ^ 5 + 163 * x ^ 6) /
        (2520 * x ^ 5 * (x + 1) ^ 5 * (2 * x + 1) ^ 4) := by
    field_simp
    ring
  have : 0 ≤ (2 + 26 * x + 141 * x ^ 2 + 393 * x ^ 3 + 604 * x ^ 4 + 489 * x ^ 5 + 163 * x ^ 6) /
        (2520 * x ^ 5 * (x + 1) ^ 5 * (2 * x + 1) ^ 4) := by positivity
  linarith

/-- What `n!` has in addition to Stirling's formula, up to a constant. -/
noncomputable def rest (m : Nat) : ℝ := Real.log (Stirling.stirlingSeq (m + 1))

theorem rest_low (m : Nat) : low ((m : ℝ) + 1) - low ((m : ℝ) + 1 + 1) ≤ rest m - rest (m + 1) := by
  have h := Stirling.log_stirlingSeq_sdiff_hasSum m
  refine (step_low (by linarith [Nat.cast_nonneg (α := ℝ) m])).trans ?_
  have h2 := sum_le_hasSum (Finset.range 2) (fun k _ => by positivity) h
  refine le_of_eq_of_le ?_ h2
  rw [Finset.sum_range_succ, Finset.sum_range_one]
  push_cast
  norm_num

theorem rest_high (m : Nat) : rest m - rest (m + 1) ≤ high ((m : ℝ) + 1) - high ((m : ℝ) + 1 + 1) := by
  have h := Stirling.log_stirlingSeq_sdiff_hasSum m
  have hm : (0 : ℝ) ≤ m := Nat.cast_nonneg m
  refine le_trans ?_ (step_high (by linarith))
  obtain ⟨y, hy⟩ : ∃ y : ℝ, y = (1 / (2 * ((m + 1 : Nat) : ℝ) + 1)) ^ 2 := ⟨_, rfl⟩
  have hy' : (1 / (2 * ((m : ℝ) + 1) + 1)) ^ 2 = y := by rw [hy]; push_cast; rfl
  rw [← hy] at h
  rw [hy']
  have hy0 : 0 ≤ y := by rw [hy]; positivity
  have hy1 : y < 1 := by
    rw [hy]
    push_cast
    rw [div_pow, one_pow, div_lt_one (by positivity)]
    nlinarith
  have h2 := (hasSum_nat_add_iff' 2).2 h
  have hg := ((hasSum_geometric_of_lt_one hy0 hy1).mul_left (1 / 7 * y ^ 3))
  have h3 := hasSum_le (fun k => ?_) h2 hg
  · rw [Finset.sum_range_succ, Finset.sum_range_one] at h3
    have e : 1 / 7 * y ^ 3 * (1 - y)⁻¹ = 1 / 28 * y ^ 2 / (((m : ℝ) + 1) * ((m : ℝ) + 1 + 1)) := by
      have : (m : ℝ) + 1 ≠ 0 := by positivity
      have : (m : ℝ) + 1 + 1 ≠ 0 := by positivity
      have e1 : (1 - y) = 4 * (((m : ℝ) + 1) * ((m : ℝ) + 1 + 1)) * y := by
        rw [← hy']
        have : 2 * ((m : ℝ) + 1) + 1 ≠ 0 := by positivity
        field_simp
        ring
      have hy2 : y ≠ 0 := by
        intro h0
        rw [h0] at e1
        norm_num at e1
      rw [e1]
      field_simp
      norm_num
    rw [e] at h3
    push_cast at h3
    change Real.log _ - Real.log _ ≤ _
    norm_num at h3 ⊢
    linarith
  · have : (1 : ℝ) / (2 * ((k + 2 + 1 : Nat) : ℝ) + 1) ≤ 1 / 7 := by
      refine one_div_le_one_div_of_le (by norm_num) ?_
      push_cast
      linarith [Nat.cast_nonneg (α := ℝ) k]
    calc _ ≤ 1 / 7 * y ^ (k + 2 + 1) := mul_le_mul_of_nonneg_right this (by positivity)
      _ = 1 / 7 * y ^ 3 * y ^ k := by ring

theorem tendsto_rest : Tendsto rest atTop (𝓝 (Real.log (√Real.pi))) :=
  ((Real.continuousAt_log (by positivity)).tendsto.comp Stirling.tendsto_stirlingSeq_sqrt_pi).comp (tendsto_add_atTop_nat 1)

theorem tendsto_inv_pow (c : ℝ) (k : Nat) (hk : k ≠ 0) : Tendsto (fun m : Nat => 1 / (c * ((m : ℝ) + 1) ^ k)) atTop (𝓝 0) := by
  have h1 : Tendsto (fun m : Nat => ((m : ℝ) + 1)⁻¹) atTop (𝓝 0) := by
    simpa using tendsto_one_div_add_atTop_nhds_zero_nat (𝕜 := ℝ)
  have h2 := (h1.pow k).const_mul c⁻¹
  rw [zero_pow hk, mul_zero] at h2
  refine h2.congr fun m => ?_
  rw [one_div, mul_inv, inv_pow]

theorem tendsto_low : Tendsto (fun m : Nat => low ((m : ℝ) + 1)) atTop (𝓝 0) := by
  have := (tendsto_inv_pow 12 1 one_ne_zero).sub (tendsto_inv_pow 360 3 (by norm_num))
  simpa [low] using this

theorem tendsto_high : Tendsto (fun m : Nat => high ((m : ℝ) + 1)) atTop (𝓝 0) := by
  have := ((tendsto_inv_pow 12 1 one_ne_zero).sub (tendsto_inv_pow 360 3 (by norm_num))).add (tendsto_inv_pow 1260 5 (by norm_num))
  simpa [high] using this

theorem rest_bounds (m : Nat) : low ((m : ℝ) + 1) ≤ rest m - Real.log (√Real.pi) ∧
    rest m - Real.log (√Real.pi) ≤ high ((m : ℝ) + 1) := by
  constructor
  · have ha : Antitone fun m : Nat => rest m - low ((m : ℝ) + 1) := antitone_nat_of_succ_le fun m => by
      have := rest_low m
      push_cast
      linarith
    have := ha.le_of_tendsto (tendsto_rest.sub tendsto_low) m
    simp only [sub_zero] at this
    linarith
  · have ha : Monotone fun m : Nat => rest m - high ((m : ℝ) + 1) := monotone_nat_of_le_succ fun m => by
      have := rest_high m
      push_cast
      linarith
    have := ha.ge_of_tendsto (tendsto_rest.sub tendsto_high) m
    simp only [sub_zero] at this
    linarith

/-- Stirling's formula with bounds: the logarithm of `m!`, as that of the gamma function at `x = m + 1`. -/
theorem log_factorial_bounds (m : Nat) (x : ℝ) (hx : x = (m : ℝ) + 1) :
    low x ≤ Real.log m.factorial - ((x - 1 / 2) * Real.log x - x + Real.log (2 * Real.pi) / 2) ∧
      Real.log m.factorial - ((x - 1 / 2) * Real.log x - x + Real.log (2 * Real.pi) / 2) ≤ high x := by
  have h := rest_bounds m
  rw [← hx] at h
  have hx0 : 0 < x := by rw [hx]; positivity
  have hf := Stirling.log_stirlingSeq_formula (m + 1)
  have e : Real.log (m + 1).factorial = Real.log x + Real.log m.factorial := by
    rw [Nat.factorial_succ, Nat.cast_mul, Real.log_mul (by positivity) (by positivity), hx]
    push_cast
    rfl
  have e2 : (((m + 1 : Nat) : ℝ)) = x := by rw [hx]; push_cast; rfl
  rw [e, e2, Real.log_mul (by norm_num) hx0.ne', Real.log_div hx0.ne' (by positivity), Real.log_exp] at hf
  have hp : Real.log (√Real.pi) = Real.log Real.pi / 2 := Real.log_sqrt Real.pi_pos.le
  have h2p : Real.log (2 * Real.pi) = Real.log 2 + Real.log Real.pi := Real.log_mul (by norm_num) Real.pi_ne_zero
  have hr : rest m = Real.log (Stirling.stirlingSeq (m + 1)) := rfl
  rw [hr, hf, hp] at h
  rw [h2p]
  have key : Real.log x + Real.log m.factorial - 1 / 2 * (Real.log 2 + Real.log x) - x * (Real.log x - 1) - Real.log Real.pi / 2 =
      Real.log m.factorial - ((x - 1 / 2) * Real.log x - x + (Real.log 2 + Real.log Real.pi) / 2) := by ring
  rw [key] at h
  exact h

/-! ### Windschitl's formula -/

theorem sinh_bounds {v : ℝ} (h0 : 0 ≤ v) (h1 : v ≤ 1) :
    |Real.sinh v - (v + v ^ 3 / 6 + v ^ 5 / 120 + v ^ 7 / 5040)| ≤ v ^ 8 / 35000 := by
  have ha := Real.exp_bound (x := v) (by rw [abs_of_nonneg h0]; exact h1) (n := 8) (by norm_num)
  have hb := Real.exp_bound (x := -v) (by rw [abs_neg, abs_of_nonneg h0]; exact h1) (n := 8) (by norm_num)
  rw [abs_neg] at hb
  rw [abs_of_nonneg h0] at ha hb
  simp only [Finset.sum_range_succ, Finset.sum_range_zero] at ha hb
  norm_num [Nat.factorial] at ha hb
  rw [Real.sinh_eq]
  have h8 : 0 ≤ v ^ 8 := by positivity
  rw [abs_le] at ha hb ⊢
  constructor <;> nlinarith

/-- The argument of the logarithm in Windschitl's formula, without one. -/
theorem inner_bounds {x : ℝ} (hx : 15 ≤ x) : ∃ e, 0 ≤ e ∧ e ≤ 0.0015 * (1 / x) ^ 6 ∧
    x * Real.sinh (1 / x) + 1 / (810 * x ^ 6) = 1 + ((1 / x) ^ 2 / 6 + (1 / x) ^ 4 / 120 + e) := by
  obtain ⟨v, hv⟩ : ∃ v, v = 1 / x := ⟨_, rfl⟩
  have hx0 : 0 < x := by linarith
  have hv0 : 0 < v := by rw [hv]; positivity
  have hv1 : v ≤ 1 / 15 := by rw [hv]; exact one_div_le_one_div_of_le (by norm_num) hx
  have hxv : x * v = 1 := by rw [hv]; field_simp
  have hs := sinh_bounds hv0.le (by linarith)
  rw [← hv]
  have e1 : 1 / (810 * x ^ 6) = v ^ 6 / 810 := by rw [hv]; field_simp
  rw [e1]
  obtain ⟨d, hd⟩ : ∃ d, d = Real.sinh v - (v + v ^ 3 / 6 + v ^ 5 / 120 + v ^ 7 / 5040) := ⟨_, rfl⟩
  rw [← hd] at hs
  have hxd : |x * d| ≤ v ^ 7 / 35000 := by
    rw [abs_mul, abs_of_pos hx0]
    calc x * |d| ≤ x * (v ^ 8 / 35000) := mul_le_mul_of_nonneg_left hs hx0.le
      _ = (x * v) * v ^ 7 / 35000 := by ring
      _ = v ^ 7 / 35000 := by rw [hxv, one_mul]
  have h7 : v ^ 7 ≤ v ^ 6 * (1 / 15) := by rw [pow_succ]; exact mul_le_mul_of_nonneg_left hv1 (by positivity)
  have h6 : 0 < v ^ 6 := by positivity
  rw [abs_le] at hxd
  refine ⟨v ^ 6 / 5040 + v ^ 6 / 810 + x * d, by linarith, by linarith, ?_⟩
  have e2 : x * Real.sinh v = x * v + (x * v) * v ^ 2 / 6 + (x * v) * v ^ 4 / 120 + (x * v) * v ^ 6 / 5040 + x * d := by
    rw [hd]; ring
  rw [e2, hxv]
  ring

theorem log_inner {w e : ℝ} (hw0 : 0 < w) (hw : w ≤ 1 / 225) (he0 : 0 ≤ e) (he : e ≤ 0.0015 * w ^ 3) :
    |Real.log (1 + (w / 6 + w ^ 2 / 120 + e)) - (w / 6 - w ^ 2 / 180)| ≤ w ^ 3 / 500 := by
  obtain ⟨z, hz⟩ : ∃ z, z = w / 6 + w ^ 2 / 120 + e := ⟨_, rfl⟩
  rw [← hz]
  have hw2 : w ^ 2 ≤ w * (1 / 225) := by rw [pow_two]; exact mul_le_mul_of_nonneg_left hw hw0.le
  have hw3 : w ^ 3 ≤ w ^ 2 * (1 / 225) := by rw [pow_succ]; exact mul_le_mul_of_nonneg_left hw (by positivity)
  have hw4 : w ^ 4 ≤ w ^ 3 * (1 / 225) := by rw [pow_succ]; exact mul_le_mul_of_nonneg_left hw (by positivity)
  have p2 : 0 < w ^ 2 := by positivity
  have p3 : 0 < w ^ 3 := by positivity
  have p4 : 0 < w ^ 4 := by positivity
  have z0 : 0 ≤ z := by rw [hz]; positivity
  have z1 : z ≤ w * (1001 / 6000) := by rw [hz]; linarith
  have z2 : z ≤ w / 6 + w ^ 2 / 120 + 0.0015 * w ^ 3 := by rw [hz]; linarith
  have z3 : w / 6 + w ^ 2 / 120 ≤ z := by rw [hz]; linarith
  have zs : z ≤ 1 / 1000 := by linarith
  have h := Real.abs_log_sub_add_sum_range_le (x := -z) (by rw [abs_neg, abs_of_nonneg z0]; linarith) 3
  simp only [Finset.sum_range_succ, Finset.sum_range_zero] at h
  rw [abs_neg, abs_of_nonneg z0, sub_neg_eq_add] at h
  have hq : z ^ (3 + 1) / (1 - z) ≤ w ^ 3 / 100000 := by
    rw [div_le_iff₀ (by linarith)]
    have : z ^ 4 ≤ (w * (1001 / 6000)) ^ 4 := pow_le_pow_left₀ z0 z1 4
    calc z ^ (3 + 1) ≤ (w * (1001 / 6000)) ^ 4 := this
      _ = w ^ 4 * (1001 / 6000) ^ 4 := by ring
      _ ≤ w ^ 3 * (1 / 225) * (1001 / 6000) ^ 4 := mul_le_mul_of_nonneg_right hw4 (by positivity)
      _ ≤ w ^ 3 / 100000 * (1 - 1 / 1000) := by
        norm_num
        linarith
      _ ≤ w ^ 3 / 100000 * (1 - z) := mul_le_mul_of_nonneg_left (by linarith) (by positivity)
  have h := h.trans hq
  have sqlo : w ^ 2 / 36 + w ^ 3 / 360 ≤ z ^ 2 := by
    have : (w / 6 + w ^ 2 / 120) ^ 2 ≤ z ^ 2 := pow_le_pow_left₀ (by positivity) z3 2
    refine le_trans ?_ this
    nlinarith
  have sqhi : z ^ 2 ≤ w ^ 2 / 36 + w ^ 3 / 300 := by
    have h1 : z ≤ w / 6 + w ^ 2 / 110 := by linarith
    have : z ^ 2 ≤ (w / 6 + w ^ 2 / 110) ^ 2 := pow_le_pow_left₀ z0 h1 2
    refine this.trans ?_
    have : (w / 6 + w ^ 2 / 110) ^ 2 = w ^ 2 / 36 + w ^ 3 / 330 + w ^ 4 / 12100 := by ring
    rw [this]
    linarith
  have cub : z ^ 3 ≤ w ^ 3 * (1 / 200) := by
    have : z ^ 3 ≤ (w * (1001 / 6000)) ^ 3 := pow_le_pow_left₀ z0 z1 3
    refine this.trans ?_
    rw [mul_pow]
    exact mul_le_mul_of_nonneg_left (by norm_num) p3.le
  have cub0 : 0 ≤ z ^ 3 := by positivity
  norm_num at h
  rw [abs_le] at h ⊢
  have c1 : (-z) ^ 3 = -z ^ 3 := by ring
  rw [c1] at h
  constructor
  · linarith
  · linarith

/-- The correction in Windschitl's formula. -/
theorem windschitl_correction {x : ℝ} (hx : 15 ≤ x) :
    |1 / 2 * x * Real.log (x * Real.sinh (1 / x) + 1 / (810 * x ^ 6)) - low x| ≤ 1 / (1000 * x ^ 5) := by
  obtain ⟨e, e0, e1, e2⟩ := inner_bounds hx
  have hx0 : 0 < x := by linarith
  have hw : (1 / x) ^ 2 ≤ 1 / 225 := by
    rw [div_pow, one_pow]
    exact one_div_le_one_div_of_le (by norm_num) (by nlinarith)
  have h := log_inner (w := (1 / x) ^ 2) (e := e) (by positivity) hw e0 (by rw [← pow_mul]; exact e1)
  rw [← pow_mul] at h
  rw [e2]
  have e3 : low x = 1 / 2 * x * ((1 / x) ^ 2 / 6 - (1 / x) ^ (2 * 2) / 180) := by
    unfold low
    simp only [one_div, inv_pow]
    field_simp
    ring
  rw [e3, ← mul_sub, abs_mul, abs_of_pos (show 0 < 1 / 2 * x by positivity)]
  calc _ ≤ 1 / 2 * x * (((1 / x) ^ 2) ^ 3 / 500) := mul_le_mul_of_nonneg_left h (by positivity)
    _ = 1 / (1000 * x ^ 5) := by field_simp; norm_num

/-! ### The constant -/

theorem log_two_pi : |(0.918938533204673 : ℝ) - Real.log (2 * Real.pi) / 2| ≤ 1e-9 := by
  have he := Real.exp_one_near_20
  rw [abs_le] at he
  have p1 := Real.pi_gt_d20
  have p2 := Real.pi_lt_d20
  have e1 : (2.71828182845904523 : ℝ) ≤ Real.exp 1 := by norm_num at he ⊢; linarith
  have e2 : Real.exp 1 ≤ (2.71828182845904524 : ℝ) := by norm_num at he ⊢; linarith
  have e0 := Real.exp_pos 1
  obtain ⟨y, hy⟩ : ∃ y, y = 2 * Real.pi / (Real.exp 1) ^ 2 := ⟨_, rfl⟩
  have hl : Real.log (2 * Real.pi) = 2 + Real.log y := by
    rw [hy, Real.log_div (by positivity) (by positivity), Real.log_pow, Real.log_exp]
    norm_num
  have q1 : (2.71828182845904523 : ℝ) ^ 2 ≤ Real.exp 1 ^ 2 := pow_le_pow_left₀ (by norm_num) e1 2
  have q2 : Real.exp 1 ^ 2 ≤ (2.71828182845904524 : ℝ) ^ 2 := pow_le_pow_left₀ e0.le e2 2
  have y1 : (0.8503366631 : ℝ) ≤ y := by
    rw [hy, le_div_iff₀ (by positivity)]
    norm_num at q2 p1 ⊢
    linarith
  have y2 : y ≤ (0.8503366632 : ℝ) := by
    rw [hy, div_le_iff₀ (by positivity)]
    norm_num at q1 p2 ⊢
    linarith
  have l1 := Real.log_le_log (by norm_num) y1
  have l2 := Real.log_le_log (by linarith) y2
  have a1 := Real.abs_log_sub_add_sum_range_le (x := 1 - 0.8503366631) (by norm_num [abs_of_pos]) 12
  have a2 := Real.abs_log_sub_add_sum_range_le (x := 1 - 0.8503366632) (by norm_num [abs_of_pos]) 12
  rw [sub_sub_cancel] at a1 a2
  rw [abs_of_pos (show (0 : ℝ) < 1 - 0.8503366631 by norm_num), sub_sub_cancel] at a1
  rw [abs_of_pos (show (0 : ℝ) < 1 - 0.8503366632 by norm_num), sub_sub_cancel] at a2
  rw [abs_le] at a1 a2
  have b1 := a1.1
  have b2 := a2.2
  simp only [Finset.sum_range_succ, Finset.sum_range_zero] at b1 b2
  rw [hl, abs_le]
  norm_num at b1 b2 l1 l2 ⊢
  constructor <;> linarith

/-- Windschitl's formula on the factorials it is used for. -/
theorem windschitl_close {m : Nat} (hm : 14 ≤ m) :
    |windschitl ((m : ℝ) + 1) - Real.log m.factorial| ≤ 1e-8 := by
  obtain ⟨x, hx⟩ : ∃ x : ℝ, x = m + 1 := ⟨_, rfl⟩
  have hx15 : 15 ≤ x := by
    have : (14 : ℝ) ≤ m := by exact_mod_cast hm
    linarith
  have hx0 : 0 < x := by linarith
  obtain ⟨b1, b2⟩ := log_factorial_bounds m x hx
  have hc := windschitl_correction hx15
  have hk := log_two_pi
  rw [← hx]
  have h5 : 1 / (1000 * x ^ 5) + 1 / (1260 * x ^ 5) ≤ 4e-9 := by
    have hp : (15 : ℝ) ^ 5 ≤ x ^ 5 := pow_le_pow_left₀ (by norm_num) hx15 5
    have u1 : 1 / (1000 * x ^ 5) ≤ 1 / (1000 * 15 ^ 5) :=
      one_div_le_one_div_of_le (by norm_num) (by linarith)
    have u2 : 1 / (1260 * x ^ 5) ≤ 1 / (1260 * 15 ^ 5) :=
      one_div_le_one_div_of_le (by norm_num) (by linarith)
    norm_num at u1 u2 ⊢
    linarith
  have h50 : 0 < 1 / (1000 * x ^ 5) := by positivity
  have h51 : 0 < 1 / (1260 * x ^ 5) := by positivity
  have hh : high x = low x + 1 / (1260 * x ^ 5) := by unfold high low; ring
  rw [hh] at b2
  have hw : windschitl x = 0.918938533204673 + (x - 1 / 2) * Real.log x - x +
      1 / 2 * x * Real.log (x * Real.sinh (1 / x) + 1 / (810 * x ^ 6)) := by
    unfold windschitl
    norm_num
  rw [hw]
  rw [abs_le] at hc hk ⊢
  generalize 1 / 2 * x * Real.log (x * Real.sinh (1 / x) + 1 / (810 * x ^ 6)) = c at *
  generalize (x - 1 / 2) * Real.log x = d at *
  generalize 1 / (1000 * x ^ 5) = e at *
  generalize 1 / (1260 * x ^ 5) = f at *
  norm_num at hk h5 ⊢
  constructor <;> linarith

/-! ### The formula of Lanczos -/

theorem log_near {E lo hi : ℝ} {N : Nat} (hlo0 : 0 < lo) (hlo : lo ≤ Real.exp 1) (hhi : Real.exp 1 ≤ hi)
    (h1 : E ≤ (1 + 1e-9) * lo ^ N) (h2 : (1 - 1e-9) * hi ^ N ≤ E) : |Real.log E - N| ≤ 2e-9 := by
  have e0 := Real.exp_pos 1
  have pe : 0 < Real.exp 1 ^ N := by positivity
  have k1 : E ≤ (1 + 1e-9) * Real.exp 1 ^ N :=
    h1.trans (mul_le_mul_of_nonneg_left (pow_le_pow_left₀ hlo0.le hlo N) (by norm_num))
  have k2 : (1 - 1e-9) * Real.exp 1 ^ N ≤ E :=
    (mul_le_mul_of_nonneg_left (pow_le_pow_left₀ e0.le hhi N) (by norm_num)).trans h2
  have E0 : 0 < E := lt_of_lt_of_le (mul_pos (by norm_num) pe) k2
  have hN : (N : ℝ) = Real.log (Real.exp 1 ^ N) := by rw [Real.log_pow, Real.log_exp, mul_one]
  have hd : Real.log E - N = Real.log (E / Real.exp 1 ^ N) := by
    rw [Real.log_div E0.ne' pe.ne', ← hN]
  rw [hd]
  have r0 : 0 < E / Real.exp 1 ^ N := by positivity
  have r1 : E / Real.exp 1 ^ N ≤ 1 + 1e-9 := (div_le_iff₀ pe).mpr k1
  have r2 : 1 - 1e-9 ≤ E / Real.exp 1 ^ N := (le_div_iff₀ pe).mpr k2
  have u := Real.log_le_sub_one_of_pos r0
  have l := Real.one_sub_inv_le_log_of_pos r0
  have hi' : (E / Real.exp 1 ^ N)⁻¹ ≤ (1 - 1e-9)⁻¹ := inv_anti₀ (by norm_num) r2
  rw [abs_le]
  norm_num at hi' r1 u l ⊢
  constructor <;> linarith

/-- The formula of Lanczos at `m + 1`, as the logarithm of one rational number. -/
theorem lanczos_eq (m : Nat) {x : ℝ} (hx : x = m + 1) {b P : ℝ}
    (hb : b = 75122.6331530 + 80916.6278952 * x + 36308.2951477 * x ^ 2 + 8687.24529705 * x ^ 3 +
      1168.92649479 * x ^ 4 + 83.8676043424 * x ^ 5 + 2.50662827511 * x ^ 6)
    (hP : P = x * (x + 1) * (x + 2) * (x + 3) * (x + 4) * (x + 5) * (x + 6)) :
    2 * (lanczos x - Real.log m.factorial) =
      Real.log ((x + 5.5) ^ (2 * m + 3) * (b / (P * m.factorial)) ^ 2) - ((2 * m + 13 : ℕ) : ℝ) := by
  have m0 : (0 : ℝ) ≤ m := Nat.cast_nonneg m
  have hx0 : 0 < x := by linarith
  have hf : (0 : ℝ) < m.factorial := by exact_mod_cast m.factorial_pos
  have hb0 : 0 < b := by rw [hb]; positivity
  have hP0 : 0 < P := by rw [hP]; positivity
  have hlP : Real.log P = Real.log x + Real.log (x + 1) + Real.log (x + 2) + Real.log (x + 3) +
      Real.log (x + 4) + Real.log (x + 5) + Real.log (x + 6) := by
    rw [hP]
    repeat rw [Real.log_mul (by positivity) (by positivity)]
  rw [Real.log_mul (by positivity) (by positivity), Real.log_pow, Real.log_pow,
    Real.log_div (by positivity) (by positivity), Real.log_mul (by positivity) (by positivity), hlP]
  have hl : lanczos x = (x + 0.5) * Real.log (x + 5.5) - (x + 5.5) - (Real.log x + Real.log (x + 1) +
      Real.log (x + 2) + Real.log (x + 3) + Real.log (x + 4) + Real.log (x + 5) + Real.log (x + 6)) +
      Real.log b := by
    have : (0 : ℝ) + 75122.6331530 * x ^ 0 + 80916.6278952 * x ^ (0 + 1) + 36308.2951477 * x ^ (0 + 1 + 1) +
        8687.24529705 * x ^ (0 + 1 + 1 + 1) + 1168.92649479 * x ^ (0 + 1 + 1 + 1 + 1) +
        83.8676043424 * x ^ (0 + 1 + 1 + 1 + 1 + 1) + 2.50662827511 * x ^ (0 + 1 + 1 + 1 + 1 + 1 + 1) = b := by
      rw [hb]; ring
    simp only [lanczos, lanczosQ, lanczosLoop]
    rw [this]
    norm_num
    ring
  rw [hl]
  have : (m : ℝ) = x - 1 := by linarith
  push_cast
  rw [this]
  norm_num
  ring

theorem exp_one_lo : (2.7182818284590452 : ℝ) ≤ Real.exp 1 := by
  have he := Real.exp_one_near_20
  rw [abs_le] at he
  norm_num at he ⊢
  linarith

theorem exp_one_hi : Real.exp 1 ≤ (2.7182818284590453 : ℝ) := by
  have he := Real.exp_one_near_20
  rw [abs_le] at he
  norm_num at he ⊢
  linarith

/-- The formula of Lanczos on the factorials it is used for. -/
theorem lanczos_close {m : Nat} (hm : m ≤ 14) :
    |lanczos ((m : ℝ) + 1) - Real.log m.factorial| ≤ 1e-9 := by
  have h := lanczos_eq m rfl rfl rfl
  have key : |2 * (lanczos ((m : ℝ) + 1) - Real.log m.factorial)| ≤ 2e-9 := by
    rw [h]
    refine log_near (by norm_num) exp_one_lo exp_one_hi ?_ ?_
    · clear h
      interval_cases m <;> norm_num [Nat.factorial]
    · clear h
      interval_cases m <;> norm_num [Nat.factorial]
  rw [abs_mul, abs_of_pos (by norm_num)] at key
  norm_num at key ⊢
  linarith

/-- C142: at every integer the code asks it about, `log_gamma` is the logarithm of the factorial, up to one
part in a hundred million. -/
theorem logGamma_close (m : Nat) : |logGamma ((m : ℝ) + 1) - Real.log m.factorial| ≤ 1e-8 := by
  unfold logGamma
  split_ifs with h
  · refine windschitl_close ?_
    have : ((14 : ℕ) : ℝ) < m := by push_cast; linarith
    exact_mod_cast this.le
  · refine (lanczos_close (m := m) ?_).trans (by norm_num)
    have : (m : ℝ) ≤ (14 : ℕ) := by push_cast; linarith
    exact_mod_cast this

end Verif.Lsd.Gamma
