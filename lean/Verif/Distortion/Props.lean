import Verif.Distortion.Model
import Mathlib.Analysis.SpecialFunctions.Trigonometric.ArctanDeriv
import Mathlib.Analysis.SpecialFunctions.Trigonometric.Bounds
import Mathlib.Analysis.SpecialFunctions.Sqrt
import Mathlib.Analysis.Calculus.FDeriv.Mul
import Mathlib.Analysis.Calculus.FDeriv.Prod
import Mathlib.Analysis.Calculus.Deriv.Inv
import Mathlib.Analysis.Real.Pi.Bounds
import Mathlib.Tactic.FieldSimp
import Mathlib.Tactic.Ring
import Mathlib.Tactic.FinCases
import Mathlib.Tactic.NormNum
import Mathlib.Tactic.Positivity
import Mathlib.Tactic.Linarith
import Mathlib.Tactic.FunProp

/-!
# Properties of the distortion models (C53, C54, C66)
-/

namespace Verif.Distortion

open Real

/-! ## Specification -/

/-- The linear map with a given row. -/
noncomputable def row (a b : ℝ) : ℝ × ℝ →L[ℝ] ℝ :=
  a • ContinuousLinearMap.fst ℝ ℝ ℝ + b • ContinuousLinearMap.snd ℝ ℝ ℝ

/-- The matrix is the (Fréchet) derivative of the map at the point. -/
def IsJacobian (f : ℝ × ℝ → ℝ × ℝ) (J : M2) (p : ℝ × ℝ) : Prop :=
  HasFDerivAt (fun q => (f q).1) (row J.a J.b) p ∧ HasFDerivAt (fun q => (f q).2) (row J.c J.d) p

/-- The columns are the derivatives of the map with respect to the coefficients. -/
def IsParameterJacobian {n : Nat} (f : (Fin n → ℝ) → ℝ × ℝ) (J : Fin n → ℝ × ℝ) (k : Fin n → ℝ) : Prop :=
  ∀ i, HasDerivAt (fun t => (f (Function.update k i t)).1) (J i).1 (k i) ∧
    HasDerivAt (fun t => (f (Function.update k i t)).2) (J i).2 (k i)

/-! ## Derivatives -/

theorem row_ext {a b a' b' : ℝ} (h1 : a = a') (h2 : b = b') : row a b = row a' b' := by rw [h1, h2]

theorem hasFDerivAt_x (p : ℝ × ℝ) : HasFDerivAt (fun q : ℝ × ℝ => q.1) (row 1 0) p := by
  have : row 1 0 = ContinuousLinearMap.fst ℝ ℝ ℝ := by
    unfold row
    simp
  rw [this]
  exact hasFDerivAt_fst

theorem hasFDerivAt_y (p : ℝ × ℝ) : HasFDerivAt (fun q : ℝ × ℝ => q.2) (row 0 1) p := by
  have : row 0 1 = ContinuousLinearMap.snd ℝ ℝ ℝ := by
    unfold row
    simp
  rw [this]
  exact hasFDerivAt_snd

theorem row_add (a b c d : ℝ) : row a b + row c d = row (a + c) (b + d) := by
  unfold row
  ext <;> simp

theorem row_smul (t a b : ℝ) : t • row a b = row (t * a) (t * b) := by
  unfold row
  ext <;> simp

theorem row_inj {a b c d : ℝ} (h : row a b = row c d) : a = c ∧ b = d := by
  have h1 := congrArg (fun L => L (1, 0)) h
  have h2 := congrArg (fun L => L (0, 1)) h
  simp [row] at h1 h2
  exact ⟨h1, h2⟩

/-- Sums and products. -/
theorem FAdd {f g : ℝ × ℝ → ℝ} {a b c d : ℝ} {p : ℝ × ℝ} (hf : HasFDerivAt f (row a b) p) (hg : HasFDerivAt g (row c d) p) :
    HasFDerivAt (fun q => f q + g q) (row (a + c) (b + d)) p := by
  have := hf.add hg
  rw [row_add] at this
  exact this

theorem FMul {f g : ℝ × ℝ → ℝ} {a b c d : ℝ} {p : ℝ × ℝ} (hf : HasFDerivAt f (row a b) p) (hg : HasFDerivAt g (row c d) p) :
    HasFDerivAt (fun q => f q * g q) (row (f p * c + g p * a) (f p * d + g p * b)) p := by
  have := hf.mul hg
  rw [row_smul, row_smul, row_add] at this
  exact this

theorem FConst (p : ℝ × ℝ) (c : ℝ) : HasFDerivAt (fun _ : ℝ × ℝ => c) (row 0 0) p := by
  have : row 0 0 = 0 := by
    unfold row
    simp
  rw [this]
  exact hasFDerivAt_const c p

theorem FComp {f : ℝ × ℝ → ℝ} {g : ℝ → ℝ} {a b g' : ℝ} {p : ℝ × ℝ} (hg : HasDerivAt g g' (f p))
    (hf : HasFDerivAt f (row a b) p) : HasFDerivAt (fun q => g (f q)) (row (g' * a) (g' * b)) p := by
  have := hg.comp_hasFDerivAt p hf
  rw [row_smul] at this
  exact this

/-! ## Radial-tangential -/

/-- C53 for the radial-tangential model: at every point and for all coefficients. -/
theorem radtan_jacobian (k : Fin 4 → ℝ) (p : ℝ × ℝ) : IsJacobian (radtanDistort k) (radtanJacobian k p) p := by
  have hx := hasFDerivAt_x p
  have hy := hasFDerivAt_y p
  have hxx := FMul hx hx
  have hyy := FMul hy hy
  have hxy := FMul hx hy
  have hr := FAdd hxx hyy
  have hrad := FAdd (FMul (FConst p (k 0)) hr) (FMul (FMul (FConst p (k 1)) hr) hr)
  constructor
  · have := FAdd hx (FAdd (FAdd (FMul hx hrad) (FMul (FConst p (2 * k 2)) hxy))
      (FMul (FConst p (k 3)) (FAdd hr (FMul (FConst p 2) hxx))))
    unfold radtanDistort radtanJacobian
    simp only
    refine this.congr_fderiv (row_ext ?_ ?_) <;> ring
  · have := FAdd hy (FAdd (FAdd (FMul hy hrad) (FMul (FConst p (2 * k 3)) hxy))
      (FMul (FConst p (k 2)) (FAdd hr (FMul (FConst p 2) hyy))))
    unfold radtanDistort radtanJacobian
    simp only
    refine this.congr_fderiv (row_ext ?_ ?_) <;> ring

theorem hasDerivAt_affine (a b x : ℝ) : HasDerivAt (fun t => a + b * t) b x := by
  have := ((hasDerivAt_id x).const_mul b).const_add a
  simpa using this

/-- The Jacobian of the radial-tangential model with respect to its parameters. -/
theorem radtan_parameterJacobian (k : Fin 4 → ℝ) (p : ℝ × ℝ) :
    IsParameterJacobian (fun k => radtanDistort k p) (radtanParameterJacobian k p) k := by
  intro i
  have h1 : (fun t => (radtanDistort (Function.update k i t) p).1) = fun t =>
      (radtanDistort (Function.update k i 0) p).1 + (radtanParameterJacobian k p i).1 * t := by
    funext t
    fin_cases i <;>
      simp [radtanDistort, radtanParameterJacobian, Function.update_apply, -add_right_inj, -add_left_inj] <;> ring
  have h2 : (fun t => (radtanDistort (Function.update k i t) p).2) = fun t =>
      (radtanDistort (Function.update k i 0) p).2 + (radtanParameterJacobian k p i).2 * t := by
    funext t
    fin_cases i <;>
      simp [radtanDistort, radtanParameterJacobian, Function.update_apply, -add_right_inj, -add_left_inj] <;> ring
  refine ⟨?_, ?_⟩
  · show HasDerivAt (fun t => (radtanDistort (Function.update k i t) p).1) _ _
    rw [h1]
    exact hasDerivAt_affine _ _ _
  · show HasDerivAt (fun t => (radtanDistort (Function.update k i t) p).2) _ _
    rw [h2]
    exact hasDerivAt_affine _ _ _

theorem arctan_lt {x : ℝ} (h : 0 < x) : Real.arctan x < x := by
  have h1 := Real.lt_tan (Real.arctan_pos.2 h) (Real.arctan_lt_pi_div_two x)
  rwa [Real.tan_arctan] at h1

/-! ## Radial scaling -/

theorem norm2_sq (p : ℝ × ℝ) : norm2 p * norm2 p = p.1 * p.1 + p.2 * p.2 :=
  Real.mul_self_sqrt (add_nonneg (mul_self_nonneg _) (mul_self_nonneg _))

theorem norm2_nonneg (p : ℝ × ℝ) : 0 ≤ norm2 p := Real.sqrt_nonneg _

theorem norm2_deriv {p : ℝ × ℝ} (h : norm2 p ≠ 0) : HasFDerivAt norm2 (row (p.1 / norm2 p) (p.2 / norm2 p)) p := by
  have hx := hasFDerivAt_x p
  have hy := hasFDerivAt_y p
  have hr := FAdd (FMul hx hx) (FMul hy hy)
  have hne : p.1 * p.1 + p.2 * p.2 ≠ 0 := by
    rw [← norm2_sq]
    exact mul_self_ne_zero.2 h
  have := FComp (g := Real.sqrt) (Real.hasDerivAt_sqrt hne) hr
  have hs : Real.sqrt (p.1 * p.1 + p.2 * p.2) = norm2 p := rfl
  refine this.congr_fderiv (row_ext ?_ ?_)
  · rw [hs]
    field_simp
    ring
  · rw [hs]
    field_simp
    ring

/-- The derivative of a radial scaling. -/
theorem radial_deriv {S : ℝ → ℝ} {s' : ℝ} {p : ℝ × ℝ} (h : norm2 p ≠ 0) (hS : HasDerivAt S s' (norm2 p)) :
    HasFDerivAt (fun q => q.1 * S (norm2 q))
      (row (S (norm2 p) + p.1 * p.1 * s' / norm2 p) (p.1 * p.2 * s' / norm2 p)) p ∧
    HasFDerivAt (fun q => q.2 * S (norm2 q))
      (row (p.1 * p.2 * s' / norm2 p) (S (norm2 p) + p.2 * p.2 * s' / norm2 p)) p := by
  have hx := hasFDerivAt_x p
  have hy := hasFDerivAt_y p
  have hc := FComp hS (norm2_deriv h)
  constructor
  · exact (FMul hx hc).congr_fderiv (row_ext (by ring) (by ring))
  · exact (FMul hy hc).congr_fderiv (row_ext (by ring) (by ring))

theorem continuous_norm2 : Continuous norm2 := by
  unfold norm2
  fun_prop

/-! ## Fisheye -/

/-- C53 for the fisheye model, point Jacobian: for every coefficient and every point other than the circle on which the
code changes the formula.  Missing: that circle, where it is false (`fisheye_boundary_refuted`). -/
theorem fisheye_jacobian_partial (k : Fin 1 → ℝ) (p : ℝ × ℝ) (hr : norm2 p * norm2 p ≠ 1e-5) :
    IsJacobian (fisheyeDistort k) (fisheyeJacobian k p) p := by
  by_cases hw : k 0 * k 0 < 1e-5
  · have e : fisheyeDistort k = fun q => q := by
      funext q
      unfold fisheyeDistort fisheyeScale
      simp only
      rw [if_pos hw, mul_one, mul_one]
    rw [e]
    unfold fisheyeJacobian
    simp only
    rw [if_pos hw]
    exact ⟨hasFDerivAt_x p, hasFDerivAt_y p⟩
  · have hw0 : k 0 ≠ 0 := by
      intro h
      rw [h] at hw
      norm_num at hw
    rcases lt_or_gt_of_ne hr with hr | hr
    · -- near the centre
      have ev : ∀ᶠ q in nhds p, norm2 q * norm2 q < 1e-5 :=
        (isOpen_lt (continuous_norm2.mul continuous_norm2) continuous_const).mem_nhds hr
      have hx := FMul (hasFDerivAt_x p) (FConst p (2 * Real.tan (k 0 / 2) / k 0))
      have hy := FMul (hasFDerivAt_y p) (FConst p (2 * Real.tan (k 0 / 2) / k 0))
      unfold fisheyeJacobian
      simp only
      rw [if_neg hw, if_pos hr]
      constructor
      · refine (hx.congr_of_eventuallyEq ?_).congr_fderiv (row_ext (by ring) (by ring))
        filter_upwards [ev] with q hq
        unfold fisheyeDistort fisheyeScale
        simp only
        rw [if_neg hw, if_pos hq]
      · refine (hy.congr_of_eventuallyEq ?_).congr_fderiv (row_ext (by ring) (by ring))
        filter_upwards [ev] with q hq
        unfold fisheyeDistort fisheyeScale
        simp only
        rw [if_neg hw, if_pos hq]
    · have ev : ∀ᶠ q in nhds p, 1e-5 < norm2 q * norm2 q :=
        (isOpen_lt continuous_const (continuous_norm2.mul continuous_norm2)).mem_nhds hr
      have hr0 : norm2 p ≠ 0 := by
        intro h
        rw [h] at hr
        norm_num at hr
      have hden : (1 : ℝ) + (2 * Real.tan (k 0 / 2) * norm2 p) ^ 2 ≠ 0 := by positivity
      have hS : HasDerivAt (fun r => Real.arctan (2 * Real.tan (k 0 / 2) * r) / (r * k 0))
          ((1 / (1 + (2 * Real.tan (k 0 / 2) * norm2 p) ^ 2) * (2 * Real.tan (k 0 / 2)) * (norm2 p * k 0) -
            Real.arctan (2 * Real.tan (k 0 / 2) * norm2 p) * k 0) / (norm2 p * k 0) ^ 2) (norm2 p) := by
        have h1 : HasDerivAt (fun r => 2 * Real.tan (k 0 / 2) * r) (2 * Real.tan (k 0 / 2)) (norm2 p) := by
          simpa using (hasDerivAt_id (norm2 p)).const_mul (2 * Real.tan (k 0 / 2))
        have h2 : HasDerivAt (fun r => r * k 0) (k 0) (norm2 p) := by
          simpa using (hasDerivAt_id (norm2 p)).mul_const (k 0)
        exact h1.arctan.div h2 (mul_ne_zero hr0 hw0)
      obtain ⟨h1, h2⟩ := radial_deriv hr0 hS
      have hsq := norm2_sq p
      unfold fisheyeJacobian
      simp only
      rw [if_neg hw, if_neg (not_lt.2 hr.le), ← hsq]
      have hden2 : 4 * (Real.tan (k 0 / 2) * Real.tan (k 0 / 2)) * (norm2 p * norm2 p) + 1 =
          1 + (2 * Real.tan (k 0 / 2) * norm2 p) ^ 2 := by ring
      rw [hden2]
      constructor
      · refine (h1.congr_of_eventuallyEq ?_).congr_fderiv (row_ext ?_ ?_)
        · filter_upwards [ev] with q hq
          unfold fisheyeDistort fisheyeScale
          simp only
          rw [if_neg hw, if_neg (not_lt.2 hq.le)]
        · field_simp
          ring
        · field_simp
      · refine (h2.congr_of_eventuallyEq ?_).congr_fderiv (row_ext ?_ ?_)
        · filter_upwards [ev] with q hq
          unfold fisheyeDistort fisheyeScale
          simp only
          rw [if_neg hw, if_neg (not_lt.2 hq.le)]
        · field_simp
        · field_simp
          ring

theorem hasDerivAt_tan_half {w : ℝ} (hc : Real.cos (w / 2) ≠ 0) :
    HasDerivAt (fun t => Real.tan (t / 2)) (Real.tan (w / 2) * Real.tan (w / 2) / 2 + 1 / 2) w := by
  have h1 : HasDerivAt (fun t : ℝ => t / 2) (1 / 2) w := (hasDerivAt_id w).div_const 2
  have h2 := HasDerivAt.comp (h₂ := Real.tan) w (Real.hasDerivAt_tan hc) h1
  refine h2.congr_deriv ?_
  rw [Real.tan_eq_sin_div_cos]
  have := Real.sin_sq_add_cos_sq (w / 2)
  field_simp
  linarith

/-- C53 for the fisheye model, Jacobian with respect to the coefficient: away from the centre.  Missing: points nearer to
the centre, where it is false (`fisheye_parameterJacobian_refuted`). -/
theorem fisheye_parameterJacobian_partial (k : Fin 1 → ℝ) (p : ℝ × ℝ) (hw : k 0 * k 0 ≠ 1e-5)
    (hr : k 0 * k 0 < 1e-5 ∨ 1e-5 ≤ norm2 p * norm2 p) (hc : Real.cos (k 0 / 2) ≠ 0) :
    IsParameterJacobian (fun k => fisheyeDistort k p) (fisheyeParameterJacobian k p) k := by
  intro i
  have hi : i = 0 := Subsingleton.elim _ _
  subst hi
  have hup : ∀ t, Function.update k 0 t 0 = t := fun t => Function.update_self _ _ _
  by_cases hs : k 0 * k 0 < 1e-5
  · have ev : ∀ᶠ t in nhds (k 0), t * t < 1e-5 :=
      (isOpen_lt (continuous_id.mul continuous_id) continuous_const).mem_nhds hs
    unfold fisheyeParameterJacobian
    simp only
    rw [if_pos hs]
    constructor
    · refine (hasDerivAt_const (k 0) p.1).congr_of_eventuallyEq ?_
      filter_upwards [ev] with t ht
      unfold fisheyeDistort fisheyeScale
      simp only
      rw [hup, if_pos ht, mul_one]
    · refine (hasDerivAt_const (k 0) p.2).congr_of_eventuallyEq ?_
      filter_upwards [ev] with t ht
      unfold fisheyeDistort fisheyeScale
      simp only
      rw [hup, if_pos ht, mul_one]
  · have hgt : 1e-5 < k 0 * k 0 := lt_of_le_of_ne (not_lt.1 hs) (Ne.symm hw)
    have ev : ∀ᶠ t in nhds (k 0), 1e-5 < t * t :=
      (isOpen_lt continuous_const (continuous_id.mul continuous_id)).mem_nhds hgt
    have hw0 : k 0 ≠ 0 := by
      intro h
      rw [h] at hgt
      norm_num at hgt
    have hr' : 1e-5 ≤ norm2 p * norm2 p := hr.resolve_left hs
    have hr0 : norm2 p ≠ 0 := by
      intro h
      rw [h] at hr'
      norm_num at hr'
    have h1 : HasDerivAt (fun t => 2 * Real.tan (t / 2) * norm2 p)
        (2 * (Real.tan (k 0 / 2) * Real.tan (k 0 / 2) / 2 + 1 / 2) * norm2 p) (k 0) :=
      ((hasDerivAt_tan_half hc).const_mul 2).mul_const _
    have h2 : HasDerivAt (fun t => norm2 p * t) (norm2 p) (k 0) := by
      simpa using (hasDerivAt_id (k 0)).const_mul (norm2 p)
    have h3 := h1.arctan.div h2 (mul_ne_zero hr0 hw0)
    have hden : (1 : ℝ) + (2 * Real.tan (k 0 / 2) * norm2 p) ^ 2 ≠ 0 := by positivity
    have hden2 : 4 * (Real.tan (k 0 / 2) * Real.tan (k 0 / 2)) * norm2 p * norm2 p + 1 =
        1 + (2 * Real.tan (k 0 / 2) * norm2 p) ^ 2 := by ring
    unfold fisheyeParameterJacobian
    simp only
    rw [if_neg hs, if_neg (not_lt.2 hr'), hden2]
    constructor
    · refine ((h3.const_mul p.1).congr_of_eventuallyEq ?_).congr_deriv ?_
      · filter_upwards [ev] with t ht
        unfold fisheyeDistort fisheyeScale
        simp only
        rw [hup, if_neg (not_lt.2 ht.le), if_neg (not_lt.2 hr')]
        rfl
      · norm_num
        field_simp
    · refine ((h3.const_mul p.2).congr_of_eventuallyEq ?_).congr_deriv ?_
      · filter_upwards [ev] with t ht
        unfold fisheyeDistort fisheyeScale
        simp only
        rw [hup, if_neg (not_lt.2 ht.le), if_neg (not_lt.2 hr')]
        rfl
      · norm_num
        field_simp

/-- Nearer to the centre the Jacobian with respect to the coefficient is never the derivative: the code leaves out the
factors `u` and `v`. -/
theorem fisheye_parameterJacobian_refuted (k : Fin 1 → ℝ) (p : ℝ × ℝ) (h1 : 0.5 ≤ k 0) (h2 : k 0 ≤ 1.5)
    (hr : norm2 p * norm2 p < 1e-5) :
    ¬ IsParameterJacobian (fun k => fisheyeDistort k p) (fisheyeParameterJacobian k p) k := by
  intro h
  have hJ := (h 0).1
  have hup : ∀ t, Function.update k 0 t 0 = t := fun t => Function.update_self _ _ _
  have hw : (0 : ℝ) < k 0 := by
    norm_num at h1
    linarith
  have hw2 : ¬ k 0 * k 0 < 1e-5 := by
    norm_num at h1 ⊢
    nlinarith
  have hgt : 1e-5 < k 0 * k 0 := by
    norm_num at h1 ⊢
    nlinarith
  have hpi := Real.pi_gt_three
  have hc : 0 < Real.cos (k 0 / 2) := by
    norm_num at h2
    exact Real.cos_pos_of_mem_Ioo ⟨by linarith, by linarith⟩
  have ev : ∀ᶠ t in nhds (k 0), 1e-5 < t * t :=
    (isOpen_lt continuous_const (continuous_id.mul continuous_id)).mem_nhds hgt
  have hd := (((hasDerivAt_tan_half hc.ne').const_mul 2).div (hasDerivAt_id (k 0)) hw.ne').const_mul p.1
  have hd' : HasDerivAt (fun t => (fisheyeDistort (Function.update k 0 t) p).1)
      (p.1 * ((2 * (Real.tan (k 0 / 2) * Real.tan (k 0 / 2) / 2 + 1 / 2) * id (k 0) - 2 * Real.tan (k 0 / 2) * 1) /
        id (k 0) ^ 2)) (k 0) := by
    refine hd.congr_of_eventuallyEq ?_
    filter_upwards [ev] with t ht
    unfold fisheyeDistort fisheyeScale
    simp only
    rw [hup, if_neg (not_lt.2 ht.le), if_pos hr]
    rfl
  have e := hJ.unique hd'
  unfold fisheyeParameterJacobian at e
  simp only at e
  rw [if_neg hw2, if_pos hr] at e
  have hsin : Real.sin (k 0) < k 0 := Real.sin_lt hw
  have hs2 : Real.sin (k 0) = 2 * Real.sin (k 0 / 2) * Real.cos (k 0 / 2) := by
    rw [← Real.sin_two_mul]
    congr 1
    ring
  have hsc := Real.sin_sq_add_cos_sq (k 0 / 2)
  have hx : p.1 < 1 := by
    have := norm2_sq p
    rw [this] at hr
    norm_num at hr
    nlinarith [mul_self_nonneg p.2]
  have key : (k 0 - Real.sin (k 0)) * (p.1 - 1) = 0 := by
    rw [Real.tan_eq_sin_div_cos] at e
    simp only [id] at e
    field_simp at e
    rw [hsc, mul_one] at e
    linear_combination (-1) * e - p.1 * hs2
  rcases mul_eq_zero.1 key with h | h
  · linarith
  · linarith

/-- On the circle where the formula changes the distortion jumps, so no matrix is its derivative. -/
theorem fisheye_boundary_refuted (k : Fin 1 → ℝ) (h1 : 0.5 ≤ k 0) (h2 : k 0 ≤ 1.5) (J : M2) :
    ¬ IsJacobian (fisheyeDistort k) J (Real.sqrt 1e-5, 0) := by
  intro hJ
  have hcont := hJ.1.continuousAt
  have hw : (0 : ℝ) < k 0 := by
    norm_num at h1
    linarith
  have hw2 : ¬ k 0 * k 0 < 1e-5 := by
    norm_num at h1 ⊢
    nlinarith
  have hpi := Real.pi_gt_three
  have ht : 0 < Real.tan (k 0 / 2) := by
    norm_num at h2
    exact Real.tan_pos_of_pos_of_lt_pi_div_two (by linarith) (by linarith)
  have ha : 0 < Real.sqrt (1e-5 : ℝ) := Real.sqrt_pos.2 (by norm_num)
  have ha2 : Real.sqrt (1e-5 : ℝ) * Real.sqrt (1e-5 : ℝ) = 1e-5 := Real.mul_self_sqrt (by norm_num)
  generalize Real.sqrt (1e-5 : ℝ) = a at *
  have hn : ∀ x : ℝ, 0 ≤ x → norm2 (x, 0) = x := by
    intro x hx
    unfold norm2
    simp [Real.sqrt_mul_self hx]
  have t1 : Filter.Tendsto (fun x : ℝ => (fisheyeDistort k (x, 0)).1) (nhdsWithin a (Set.Iio a))
      (nhds (fisheyeDistort k (a, 0)).1) := by
    have hcurve : Filter.Tendsto (fun x : ℝ => ((x, 0) : ℝ × ℝ)) (nhdsWithin a (Set.Iio a)) (nhds (a, 0)) :=
      ((continuous_id.prodMk continuous_const).tendsto a).mono_left nhdsWithin_le_nhds
    exact hcont.tendsto.comp hcurve
  have t2 : Filter.Tendsto (fun x : ℝ => (fisheyeDistort k (x, 0)).1) (nhdsWithin a (Set.Iio a))
      (nhds (a * (2 * Real.tan (k 0 / 2) / k 0))) := by
    have hc : Filter.Tendsto (fun x : ℝ => x * (2 * Real.tan (k 0 / 2) / k 0)) (nhdsWithin a (Set.Iio a))
        (nhds (a * (2 * Real.tan (k 0 / 2) / k 0))) :=
      ((continuous_id.mul continuous_const).tendsto a).mono_left nhdsWithin_le_nhds
    refine hc.congr' ?_
    have h0 : ∀ᶠ x in nhdsWithin a (Set.Iio a), 0 < x := nhdsWithin_le_nhds (lt_mem_nhds ha)
    filter_upwards [self_mem_nhdsWithin, h0] with x hx h0
    unfold fisheyeDistort fisheyeScale
    simp only
    rw [hn x h0.le, if_neg hw2, if_pos]
    have hx' : x < a := hx
    nlinarith
  have e := tendsto_nhds_unique t1 t2
  unfold fisheyeDistort fisheyeScale at e
  simp only at e
  rw [hn a ha.le, if_neg hw2, if_neg (by rw [ha2]; exact lt_irrefl _)] at e
  field_simp at e
  have hlt : Real.arctan (2 * Real.tan (k 0 / 2) * a) < 2 * Real.tan (k 0 / 2) * a := arctan_lt (by positivity)
  have hcomm : a * 2 * Real.tan (k 0 / 2) = 2 * Real.tan (k 0 / 2) * a := by ring
  rw [hcomm] at e
  linarith

/-! ## Equidistant -/

theorem thetad_deriv (k : Fin 4 → ℝ) (x : ℝ) :
    HasDerivAt (thetad k) (1 + 3 * k 0 * x ^ 2 + 5 * k 1 * x ^ 4 + 7 * k 2 * x ^ 6 + 9 * k 3 * x ^ 8) x := by
  have e : thetad k = fun x => x + k 0 * x ^ 3 + k 1 * x ^ 5 + k 2 * x ^ 7 + k 3 * x ^ 9 := by
    funext x
    unfold thetad
    simp only
    ring
  rw [e]
  have h := ((((hasDerivAt_id x).add ((hasDerivAt_pow 3 x).const_mul (k 0))).add
    ((hasDerivAt_pow 5 x).const_mul (k 1))).add ((hasDerivAt_pow 7 x).const_mul (k 2))).add
    ((hasDerivAt_pow 9 x).const_mul (k 3))
  refine h.congr_deriv ?_
  norm_num
  ring

/-- C53 for the equidistant model: for all coefficients, outside the radius 10⁻⁸ within which the code uses other
formulas.  Missing: the points nearer to the centre, where it is false (`equidistant_center_refuted`,
`equidistant_small_refuted`). -/
theorem equidistant_jacobian_partial (k : Fin 4 → ℝ) (p : ℝ × ℝ) (hr : 1e-8 < norm2 p) :
    IsJacobian (equidistantDistort k) (equidistantJacobian k p) p := by
  have hr0 : 0 < norm2 p := lt_trans (by norm_num) hr
  have h10 : ∀ {q : ℝ × ℝ}, 1e-8 < norm2 q → ¬ norm2 q < 1e-10 := by
    intro q hq hn
    norm_num at hq hn
    linarith
  have ev : ∀ᶠ q in nhds p, 1e-8 < norm2 q := (isOpen_lt continuous_const continuous_norm2).mem_nhds hr
  have hS : HasDerivAt (fun r => thetad k (Real.arctan r) / r)
      (((1 + 3 * k 0 * Real.arctan (norm2 p) ^ 2 + 5 * k 1 * Real.arctan (norm2 p) ^ 4 +
        7 * k 2 * Real.arctan (norm2 p) ^ 6 + 9 * k 3 * Real.arctan (norm2 p) ^ 8) * (1 / (1 + norm2 p ^ 2)) * norm2 p -
        thetad k (Real.arctan (norm2 p)) * 1) / norm2 p ^ 2) (norm2 p) := by
    have h := HasDerivAt.comp (norm2 p) (thetad_deriv k (Real.arctan (norm2 p))) (Real.hasDerivAt_arctan (norm2 p))
    exact h.div (hasDerivAt_id (norm2 p)) hr0.ne'
  obtain ⟨h1, h2⟩ := radial_deriv hr0.ne' hS
  have hsq := norm2_sq p
  have hden : norm2 p * norm2 p + 1 ≠ 0 := by positivity
  have hden' : 1 + norm2 p ^ 2 = norm2 p * norm2 p + 1 := by ring
  rw [hden'] at h1 h2
  unfold equidistantJacobian
  simp only
  rw [if_neg (h10 hr), ← hsq]
  unfold thetad at h1 h2
  simp only at h1 h2
  constructor
  · refine (h1.congr_of_eventuallyEq ?_).congr_fderiv (row_ext ?_ ?_)
    · filter_upwards [ev] with q hq
      unfold equidistantDistort thetad
      simp only
      rw [if_neg (h10 hq), if_pos hq]
    · field_simp
      ring
    · field_simp
      ring
  · refine (h2.congr_of_eventuallyEq ?_).congr_fderiv (row_ext ?_ ?_)
    · filter_upwards [ev] with q hq
      unfold equidistantDistort thetad
      simp only
      rw [if_neg (h10 hq), if_pos hq]
    · field_simp
      ring
    · field_simp
      ring

/-- The Jacobian of the equidistant model with respect to its parameters, but for a small ring around the centre. -/
theorem equidistant_parameterJacobian_partial (k : Fin 4 → ℝ) (p : ℝ × ℝ) (hr : norm2 p < 1e-10 ∨ 1e-8 < norm2 p) :
    IsParameterJacobian (fun k => equidistantDistort k p) (equidistantParameterJacobian k p) k := by
  intro i
  rcases hr with hr | hr
  · unfold equidistantDistort equidistantParameterJacobian
    simp only [if_pos hr]
    exact ⟨hasDerivAt_const _ _, hasDerivAt_const _ _⟩
  · have hr0 : 0 < norm2 p := lt_trans (by norm_num) hr
    have h10 : ¬ norm2 p < 1e-10 := by
      intro hn
      norm_num at hr hn
      linarith
    have h1 : (fun t => (equidistantDistort (Function.update k i t) p).1) = fun t =>
        (equidistantDistort (Function.update k i 0) p).1 + (equidistantParameterJacobian k p i).1 * t := by
      funext t
      unfold equidistantDistort equidistantParameterJacobian thetad
      simp only [if_neg h10, if_pos hr]
      fin_cases i <;> simp [Function.update_apply, -add_right_inj, -add_left_inj] <;> field_simp <;> ring
    have h2 : (fun t => (equidistantDistort (Function.update k i t) p).2) = fun t =>
        (equidistantDistort (Function.update k i 0) p).2 + (equidistantParameterJacobian k p i).2 * t := by
      funext t
      unfold equidistantDistort equidistantParameterJacobian thetad
      simp only [if_neg h10, if_pos hr]
      fin_cases i <;> simp [Function.update_apply, -add_right_inj, -add_left_inj] <;> field_simp <;> ring
    refine ⟨?_, ?_⟩
    · show HasDerivAt (fun t => (equidistantDistort (Function.update k i t) p).1) _ _
      rw [h1]
      exact hasDerivAt_affine _ _ _
    · show HasDerivAt (fun t => (equidistantDistort (Function.update k i t) p).2) _ _
      rw [h2]
      exact hasDerivAt_affine _ _ _

theorem identity_near {k : Fin 4 → ℝ} {q : ℝ × ℝ} (h : norm2 q < 1e-8) : equidistantDistort k q = q := by
  unfold equidistantDistort
  simp only
  by_cases hq : norm2 q < 1e-10
  · rw [if_pos hq]
  · rw [if_neg hq, if_neg (not_lt.2 h.le), mul_one, mul_one]

theorem identity_derivative {k : Fin 4 → ℝ} {p : ℝ × ℝ} (h : norm2 p < 1e-8) :
    HasFDerivAt (fun q => (equidistantDistort k q).1) (row 1 0) p := by
  refine (hasFDerivAt_x p).congr_of_eventuallyEq ?_
  filter_upwards [(isOpen_lt continuous_norm2 continuous_const).mem_nhds h] with q hq
  rw [identity_near hq]

/-- At the centre the distortion is the identity, but the Jacobian returned is zero. -/
theorem equidistant_center_refuted (k : Fin 4 → ℝ) (p : ℝ × ℝ) (hr : norm2 p < 1e-10) :
    ¬ IsJacobian (equidistantDistort k) (equidistantJacobian k p) p := by
  intro h
  have h8 : norm2 p < 1e-8 := lt_trans hr (by norm_num)
  have e := h.1.unique (identity_derivative h8)
  unfold equidistantJacobian at e
  simp only [if_pos hr] at e
  have := (row_inj e).1
  norm_num at this

/-- Between the radii 10⁻¹⁰ and 10⁻⁸ the distortion is the identity too, but the Jacobians returned are those of the
formula used farther out. -/
theorem equidistant_small_refuted :
    ¬ IsJacobian (equidistantDistort 0) (equidistantJacobian 0 (1e-9, 0)) (1e-9, 0) ∧
      ¬ IsParameterJacobian (fun k => equidistantDistort k (1e-9, 0)) (equidistantParameterJacobian 0 (1e-9, 0)) 0 := by
  have hn : norm2 ((1e-9 : ℝ), 0) = 1e-9 := by
    unfold norm2
    simp only [mul_zero, add_zero]
    exact Real.sqrt_mul_self (by norm_num)
  have h8 : norm2 ((1e-9 : ℝ), 0) < 1e-8 := by
    rw [hn]
    norm_num
  have h10 : ¬ norm2 ((1e-9 : ℝ), 0) < 1e-10 := by
    rw [hn]
    norm_num
  have hat : 0 < Real.arctan (1e-9) := by
    rw [Real.arctan_pos]
    norm_num
  constructor
  · intro h
    have e := (row_inj (h.1.unique (identity_derivative h8))).1
    unfold equidistantJacobian at e
    simp only [if_neg h10, hn] at e
    norm_num at e
    ring_nf at e
    norm_num at e
  · intro h
    have h1 := (h 0).1
    have h2 : HasDerivAt (fun t => (equidistantDistort (Function.update 0 0 t) ((1e-9 : ℝ), 0)).1) 0 ((0 : Fin 4 → ℝ) 0) := by
      have : (fun t => (equidistantDistort (Function.update 0 0 t) ((1e-9 : ℝ), 0)).1) = fun _ => 1e-9 := by
        funext t
        rw [identity_near h8]
      rw [this]
      exact hasDerivAt_const _ _
    have e := h1.unique h2
    unfold equidistantParameterJacobian at e
    simp only [if_neg h10, hn] at e
    simp at e
    norm_num at e

/-! ## Undistorting the fisheye model -/

theorem norm2_scale (p : ℝ × ℝ) {s : ℝ} (hs : 0 ≤ s) : norm2 (p.1 * s, p.2 * s) = norm2 p * s := by
  unfold norm2
  simp only
  rw [show p.1 * s * (p.1 * s) + p.2 * s * (p.2 * s) = (p.1 * p.1 + p.2 * p.2) * (s * s) by ring,
    Real.sqrt_mul (add_nonneg (mul_self_nonneg _) (mul_self_nonneg _)), Real.sqrt_mul_self hs]

theorem norm2_eq_zero {p : ℝ × ℝ} : norm2 p = 0 ↔ p = (0, 0) := by
  constructor
  · intro h
    have := norm2_sq p
    rw [h] at this
    have h1 : p.1 = 0 := by nlinarith [mul_self_nonneg p.1, mul_self_nonneg p.2]
    have h2 : p.2 = 0 := by nlinarith [mul_self_nonneg p.1, mul_self_nonneg p.2]
    exact Prod.ext h1 h2
  · rintro rfl
    unfold norm2
    simp

theorem scale_eq_self {p : ℝ × ℝ} {s : ℝ} (hp : norm2 p ≠ 0) : (p.1 * s, p.2 * s) = p ↔ s = 1 := by
  constructor
  · intro h
    have h1 : p.1 * s = p.1 := congrArg Prod.fst h
    have h2 : p.2 * s = p.2 := congrArg Prod.snd h
    by_contra hs
    have e1 : p.1 * (s - 1) = 0 := by linarith
    have e2 : p.2 * (s - 1) = 0 := by linarith
    have hs' : s - 1 ≠ 0 := sub_ne_zero.2 hs
    apply hp
    rw [norm2_eq_zero]
    exact Prod.ext ((mul_eq_zero.1 e1).resolve_right hs') ((mul_eq_zero.1 e2).resolve_right hs')
  · rintro rfl
    simp

theorem tan_half_bounds {w : ℝ} (h1 : 0.5 ≤ w) (h2 : w ≤ 1.5) : 0 < Real.tan (w / 2) ∧ Real.tan (w / 2) < 1 := by
  have hpi := Real.pi_gt_d2
  norm_num at h1 h2 hpi
  constructor
  · exact Real.tan_pos_of_pos_of_lt_pi_div_two (by linarith) (by linarith)
  · rw [← Real.tan_pi_div_four]
    exact Real.tan_lt_tan_of_lt_of_lt_pi_div_two (by linarith) (by linarith) (by linarith)

theorem tan_89 : 10 ≤ Real.tan maxValidAngle := by
  have hpi := Real.pi_gt_three
  have hpi2 := Real.pi_lt_d2
  norm_num at hpi2
  have e : maxValidAngle = Real.pi / 2 - Real.pi / 180 := by
    unfold maxValidAngle
    ring
  have hx : 0 < Real.pi / 180 := by positivity
  have hs0 : 0 < Real.sin (Real.pi / 180) := Real.sin_pos_of_pos_of_lt_pi hx (by linarith)
  have hs1 : Real.sin (Real.pi / 180) < Real.pi / 180 := Real.sin_lt hx
  have hc := Real.one_sub_sq_div_two_le_cos (x := Real.pi / 180)
  rw [e, Real.tan_pi_div_two_sub, Real.tan_eq_sin_div_cos, inv_div, le_div_iff₀ hs0]
  nlinarith

/-- C54, exactly: with a valid non-zero coefficient, undistorting a distorted point gives the point if and only if it is
the centre, or it is not nearer to the centre than the radius at which the formula changes and within 89 degrees. -/
theorem fisheye_inverse_iff (k : Fin 1 → ℝ) (h1 : 0.5 ≤ k 0) (h2 : k 0 ≤ 1.5) (p : ℝ × ℝ) :
    fisheyeUndistort k (fisheyeDistort k p) = p ↔
      p = (0, 0) ∨ (1e-5 ≤ p.1 ^ 2 + p.2 ^ 2 ∧
        Real.arctan (2 * Real.tan (k 0 / 2) * Real.sqrt (p.1 ^ 2 + p.2 ^ 2)) ≤ 89 * Real.pi / 180) := by
  have hn : Real.sqrt (p.1 ^ 2 + p.2 ^ 2) = norm2 p := by
    unfold norm2
    rw [pow_two, pow_two]
  have hsq : p.1 ^ 2 + p.2 ^ 2 = norm2 p * norm2 p := by
    rw [norm2_sq]
    ring
  rw [hn, hsq]
  obtain ⟨ht0, ht1⟩ := tan_half_bounds h1 h2
  have hw : 0 < k 0 := lt_of_lt_of_le (by norm_num) h1
  have hw2 : ¬ k 0 * k 0 < 1e-5 := by
    norm_num at h1 ⊢
    nlinarith
  have hm : ¬ Real.tan (k 0 / 2) * 2 = 0 := by
    intro h
    linarith
  have hpi3 := Real.pi_gt_three
  have hpi2 := Real.pi_lt_d2
  norm_num at hpi2
  by_cases hp : norm2 p = 0
  · have hp' := norm2_eq_zero.1 hp
    subst hp'
    refine iff_of_true ?_ (Or.inl rfl)
    have : fisheyeDistort k (0, 0) = (0, 0) := by
      unfold fisheyeDistort
      simp
    rw [this]
    unfold fisheyeUndistort
    simp only
    rw [if_pos (Or.inr hp)]
  · have hpos : 0 < norm2 p := lt_of_le_of_ne (norm2_nonneg p) (Ne.symm hp)
    have hne : ¬ p = (0, 0) := fun h => hp (norm2_eq_zero.2 h)
    simp only [hne, false_or]
    -- the scale
    have hs : 0 < fisheyeScale (k 0) (norm2 p) := by
      unfold fisheyeScale
      simp only
      rw [if_neg hw2]
      by_cases hr : norm2 p * norm2 p < 1e-5
      · rw [if_pos hr]
        positivity
      · rw [if_neg hr]
        have := Real.arctan_pos.2 (show 0 < 2 * Real.tan (k 0 / 2) * norm2 p by positivity)
        positivity
    have hd : norm2 (fisheyeDistort k p) = norm2 p * fisheyeScale (k 0) (norm2 p) := norm2_scale p hs.le
    have hd0 : ¬ norm2 p * fisheyeScale (k 0) (norm2 p) = 0 := (mul_pos hpos hs).ne'
    have hund : fisheyeUndistort k (fisheyeDistort k p) =
        if norm2 p * fisheyeScale (k 0) (norm2 p) * k 0 ≤ maxValidAngle then
          (p.1 * (fisheyeScale (k 0) (norm2 p) * (Real.tan (norm2 p * fisheyeScale (k 0) (norm2 p) * k 0) /
            (norm2 p * fisheyeScale (k 0) (norm2 p) * (Real.tan (k 0 / 2) * 2)))),
           p.2 * (fisheyeScale (k 0) (norm2 p) * (Real.tan (norm2 p * fisheyeScale (k 0) (norm2 p) * k 0) /
            (norm2 p * fisheyeScale (k 0) (norm2 p) * (Real.tan (k 0 / 2) * 2)))))
        else (p.1 * fisheyeScale (k 0) (norm2 p), p.2 * fisheyeScale (k 0) (norm2 p)) := by
      unfold fisheyeUndistort
      simp only
      rw [hd, if_neg (by rintro (h | h); exacts [hm h, hd0 h]), abs_of_pos (by positivity)]
      unfold fisheyeDistort
      simp only [mul_assoc]
    rw [hund]
    by_cases hr : norm2 p * norm2 p < 1e-5
    · -- near the centre: never
      refine iff_of_false ?_ (fun h => absurd h.1 (not_le.2 hr))
      have hsc : fisheyeScale (k 0) (norm2 p) = 2 * Real.tan (k 0 / 2) / k 0 := by
        unfold fisheyeScale
        simp only
        rw [if_neg hw2, if_pos hr]
      have harg : norm2 p * fisheyeScale (k 0) (norm2 p) * k 0 = 2 * Real.tan (k 0 / 2) * norm2 p := by
        rw [hsc]
        field_simp
      have hr1 : norm2 p < 0.01 := by
        norm_num at hr ⊢
        nlinarith
      have hsmall : 2 * Real.tan (k 0 / 2) * norm2 p < 0.02 := by
        norm_num at hr1 ⊢
        nlinarith
      have hle : 2 * Real.tan (k 0 / 2) * norm2 p ≤ maxValidAngle := by
        unfold maxValidAngle
        norm_num at hsmall
        linarith
      rw [harg, if_pos hle, scale_eq_self hp]
      intro e
      have hlt := Real.lt_tan (show 0 < 2 * Real.tan (k 0 / 2) * norm2 p by positivity)
        (by norm_num at hsmall; linarith)
      rw [mul_div_assoc', div_eq_iff (by positivity)] at e
      have e' : Real.tan (2 * Real.tan (k 0 / 2) * norm2 p) * fisheyeScale (k 0) (norm2 p) =
          2 * Real.tan (k 0 / 2) * norm2 p * fisheyeScale (k 0) (norm2 p) := by linarith
      have := mul_right_cancel₀ hs.ne' e'
      linarith
    · have hr' := not_lt.1 hr
      have hsc : fisheyeScale (k 0) (norm2 p) = Real.arctan (2 * Real.tan (k 0 / 2) * norm2 p) / (norm2 p * k 0) := by
        unfold fisheyeScale
        simp only
        rw [if_neg hw2, if_neg hr]
      have harg : norm2 p * fisheyeScale (k 0) (norm2 p) * k 0 = Real.arctan (2 * Real.tan (k 0 / 2) * norm2 p) := by
        rw [hsc]
        field_simp
      rw [harg]
      by_cases hle : Real.arctan (2 * Real.tan (k 0 / 2) * norm2 p) ≤ maxValidAngle
      · rw [if_pos hle, scale_eq_self hp]
        refine iff_of_true ?_ ⟨hr', hle⟩
        rw [Real.tan_arctan]
        field_simp
      · rw [if_neg hle, scale_eq_self hp]
        refine iff_of_false ?_ (fun h => hle h.2)
        intro e
        have hbig : 10 < 2 * Real.tan (k 0 / 2) * norm2 p := by
          have hlt := Real.tan_lt_tan_of_lt_of_lt_pi_div_two (x := maxValidAngle)
            (by unfold maxValidAngle; linarith) (Real.arctan_lt_pi_div_two _) (not_le.1 hle)
          rw [Real.tan_arctan] at hlt
          exact lt_of_le_of_lt tan_89 hlt
        have hat := Real.arctan_lt_pi_div_two (2 * Real.tan (k 0 / 2) * norm2 p)
        rw [← harg, e] at hat
        norm_num at h1
        nlinarith

/-- C54 in the form a user relies on. -/
theorem fisheye_inverse_partial (k : Fin 1 → ℝ) (h1 : 0.5 ≤ k 0) (h2 : k 0 ≤ 1.5) (p : ℝ × ℝ)
    (hr : p = (0, 0) ∨ 1e-5 ≤ p.1 ^ 2 + p.2 ^ 2)
    (ha : Real.arctan (2 * Real.tan (k 0 / 2) * Real.sqrt (p.1 ^ 2 + p.2 ^ 2)) ≤ 89 * Real.pi / 180) :
    fisheyeUndistort k (fisheyeDistort k p) = p :=
  (fisheye_inverse_iff k h1 h2 p).2 (hr.imp id fun h => ⟨h, ha⟩)

/-- With the coefficient zero nothing is distorted. -/
theorem fisheye_zero (p : ℝ × ℝ) : fisheyeDistort 0 p = p ∧ fisheyeUndistort 0 p = p := by
  constructor
  · unfold fisheyeDistort fisheyeScale
    simp only [Pi.zero_apply, mul_zero]
    rw [if_pos (by norm_num), mul_one, mul_one]
  · unfold fisheyeUndistort
    simp

/-- Points near the centre do not come back. -/
theorem fisheye_inverse_refuted : FisheyeValid (fun _ => 1) ∧
    fisheyeUndistort (fun _ => 1) (fisheyeDistort (fun _ => 1) (0.001, 0)) ≠ (0.001, 0) := by
  constructor
  · right
    norm_num
  · rw [Ne, fisheye_inverse_iff _ (by norm_num) (by norm_num)]
    rintro (h | ⟨h, _⟩)
    · norm_num at h
    · norm_num at h

/-- The other direction: distorting an undistorted point gives the point. -/
theorem fisheye_inverse_right (k : Fin 1 → ℝ) (h1 : 0.5 ≤ k 0) (h2 : k 0 ≤ 1.5) (q : ℝ × ℝ)
    (hq : Real.sqrt (q.1 ^ 2 + q.2 ^ 2) * k 0 ≤ 89 * Real.pi / 180)
    (hr : q = (0, 0) ∨ 1e-5 ≤ (fisheyeUndistort k q).1 ^ 2 + (fisheyeUndistort k q).2 ^ 2) :
    fisheyeDistort k (fisheyeUndistort k q) = q := by
  have hn : Real.sqrt (q.1 ^ 2 + q.2 ^ 2) = norm2 q := by
    unfold norm2
    rw [pow_two, pow_two]
  rw [hn] at hq
  obtain ⟨ht0, ht1⟩ := tan_half_bounds h1 h2
  have hw : 0 < k 0 := lt_of_lt_of_le (by norm_num) h1
  have hw2 : ¬ k 0 * k 0 < 1e-5 := by
    norm_num at h1 ⊢
    nlinarith
  have hm : ¬ Real.tan (k 0 / 2) * 2 = 0 := by
    intro h
    linarith
  have hpi3 := Real.pi_gt_three
  by_cases hq0 : norm2 q = 0
  · have hq' := norm2_eq_zero.1 hq0
    subst hq'
    have e : fisheyeUndistort k (0, 0) = (0, 0) := by
      unfold fisheyeUndistort
      simp only
      rw [if_pos (Or.inr hq0)]
    rw [e]
    unfold fisheyeDistort
    simp
  · have hpos : 0 < norm2 q := lt_of_le_of_ne (norm2_nonneg q) (Ne.symm hq0)
    have hr := hr.resolve_left (fun h => hq0 (norm2_eq_zero.2 h))
    have hang : norm2 q * k 0 < Real.pi / 2 := by linarith
    have htan : 0 < Real.tan (norm2 q * k 0) := Real.tan_pos_of_pos_of_lt_pi_div_two (by positivity) hang
    have hs : 0 < Real.tan (norm2 q * k 0) / (norm2 q * (Real.tan (k 0 / 2) * 2)) := by positivity
    have hu : fisheyeUndistort k q = (q.1 * (Real.tan (norm2 q * k 0) / (norm2 q * (Real.tan (k 0 / 2) * 2))),
        q.2 * (Real.tan (norm2 q * k 0) / (norm2 q * (Real.tan (k 0 / 2) * 2)))) := by
      unfold fisheyeUndistort
      simp only
      rw [if_neg (by rintro (h | h); exacts [hm h, hq0 h]), abs_of_pos (by positivity), if_pos (show norm2 q * k 0 ≤ maxValidAngle from hq)]
    rw [hu] at hr
    have hnu := norm2_scale q hs.le
    have hr' : ¬ norm2 (fisheyeUndistort k q) * norm2 (fisheyeUndistort k q) < 1e-5 := by
      rw [norm2_sq, hu, not_lt, ← pow_two, ← pow_two]
      exact hr
    rw [hu] at hr'
    rw [hu]
    unfold fisheyeDistort fisheyeScale
    simp only
    rw [if_neg hw2, if_neg hr', hnu]
    have harg : 2 * Real.tan (k 0 / 2) * (norm2 q * (Real.tan (norm2 q * k 0) / (norm2 q * (Real.tan (k 0 / 2) * 2)))) =
        Real.tan (norm2 q * k 0) := by
      field_simp
    rw [harg, Real.arctan_tan (by nlinarith) hang, mul_assoc q.1, mul_assoc q.2]
    have hone : Real.tan (norm2 q * k 0) / (norm2 q * (Real.tan (k 0 / 2) * 2)) *
        (norm2 q * k 0 / (norm2 q * (Real.tan (norm2 q * k 0) / (norm2 q * (Real.tan (k 0 / 2) * 2))) * k 0)) = 1 := by
      field_simp
    rw [hone]
    simp

/-- The hypotheses can be met by a point off both axes. -/
example : fisheyeUndistort (fun _ => 1) (fisheyeDistort (fun _ => 1) (0.3, -0.4)) = (0.3, -0.4) := by
  refine fisheye_inverse_partial _ (by norm_num) (by norm_num) _ (Or.inr (by norm_num)) ?_
  obtain ⟨ht0, ht1⟩ := tan_half_bounds (w := 1) (by norm_num) (by norm_num)
  have hpi := Real.pi_gt_three
  have hs : Real.sqrt ((0.3 : ℝ) ^ 2 + (-0.4) ^ 2) ≤ 1 / 2 := by
    rw [Real.sqrt_le_left (by norm_num)]
    norm_num
  have hs0 := Real.sqrt_nonneg ((0.3 : ℝ) ^ 2 + (-0.4) ^ 2)
  have hx : 0 ≤ 2 * Real.tan (1 / 2) * Real.sqrt ((0.3 : ℝ) ^ 2 + (-0.4) ^ 2) := by positivity
  have hle : Real.arctan (2 * Real.tan (1 / 2) * Real.sqrt ((0.3 : ℝ) ^ 2 + (-0.4) ^ 2)) ≤
      2 * Real.tan (1 / 2) * Real.sqrt ((0.3 : ℝ) ^ 2 + (-0.4) ^ 2) := by
    rcases hx.eq_or_lt with h | h
    · rw [← h]
      simp
    · exact (arctan_lt h).le
  simp only
  generalize Real.sqrt ((0.3 : ℝ) ^ 2 + (-0.4) ^ 2) = x at *
  refine hle.trans ?_
  nlinarith

/-! ## The iterative undistortion (radial-tangential and equidistant) -/

/-- The step solves the linearised equation. -/
theorem newtonStep_solves {F : M2} {e du : ℝ × ℝ} (h : newtonStep F e = some du) :
    F.a * du.1 + F.b * du.2 = e.1 ∧ F.c * du.1 + F.d * du.2 = e.2 := by
  unfold newtonStep at h
  simp only at h
  split at h
  · cases h
  · rename_i hdet
    injection h with h
    subst h
    have hdet' : (F.a * F.d - F.b * F.c) ^ 2 ≠ 0 := by
      intro h0
      apply hdet
      rw [← h0]
      ring
    have hne : F.a * F.d - F.b * F.c ≠ 0 := fun h0 => hdet' (by rw [h0]; norm_num)
    simp only
    constructor
    · rw [mul_div_assoc', mul_div_assoc', ← add_div, div_eq_iff hdet]
      ring
    · rw [mul_div_assoc', mul_div_assoc', ← add_div, div_eq_iff hdet]
      ring

/-- A singular Jacobian, and only that, makes the step undefined. -/
theorem newtonStep_none (F : M2) (e : ℝ × ℝ) : newtonStep F e = none ↔ F.a * F.d - F.b * F.c = 0 := by
  unfold newtonStep
  simp only
  have key : (F.a * F.a + F.c * F.c) * (F.b * F.b + F.d * F.d) - (F.a * F.b + F.c * F.d) * (F.a * F.b + F.c * F.d) =
      (F.a * F.d - F.b * F.c) ^ 2 := by ring
  rw [key]
  constructor
  · intro h
    by_contra hne
    rw [if_neg (pow_ne_zero 2 hne)] at h
    cases h
  · intro h
    rw [h, if_pos (by norm_num)]

/-- C66: an iterate that distorts to the given point is returned, whatever the tolerance, if the Jacobian is regular
there. -/
theorem newtonLoop_fixed {distort : ℝ × ℝ → ℝ × ℝ} {jac : ℝ × ℝ → M2} {tol : ℝ} {y q : ℝ × ℝ} (h : distort q = y)
    (hJ : (jac q).a * (jac q).d - (jac q).b * (jac q).c ≠ 0) :
    ∀ n, newtonLoop distort jac tol y n q = some q := by
  intro n
  induction n with
  | zero => rfl
  | succ n ih =>
    unfold newtonLoop
    simp only [h, sub_self]
    cases hs : newtonStep (jac q) (0, 0) with
    | none => exact absurd ((newtonStep_none _ _).1 hs) hJ
    | some du =>
      obtain ⟨e1, e2⟩ := newtonStep_solves hs
      simp only at e1 e2
      have d1 : du.1 = 0 := by
        have : (jac q).a * (jac q).d * du.1 - (jac q).b * (jac q).c * du.1 = 0 := by linear_combination (jac q).d * e1 - (jac q).b * e2
        have : ((jac q).a * (jac q).d - (jac q).b * (jac q).c) * du.1 = 0 := by linarith
        exact (mul_eq_zero.1 this).resolve_left hJ
      have d2 : du.2 = 0 := by
        have : ((jac q).a * (jac q).d - (jac q).b * (jac q).c) * du.2 = 0 := by linear_combination (jac q).a * e2 - (jac q).c * e1
        exact (mul_eq_zero.1 this).resolve_left hJ
      simp only [d1, d2, add_zero, mul_zero]
      split
      · rfl
      · exact ih

/-- C66: without distortion the iterative models return the point itself, and so does every model at the centre. -/
theorem radtan_undistort_zero (tol : ℝ) (p : ℝ × ℝ) : radtanUndistort tol 0 p = some p := by
  refine newtonLoop_fixed ?_ ?_ 30
  · unfold radtanDistort
    simp
  · unfold radtanJacobian
    simp

/-- The centre is its own undistorted point. -/
theorem radtan_undistort_center (tol : ℝ) (k : Fin 4 → ℝ) : radtanUndistort tol k (0, 0) = some (0, 0) := by
  refine newtonLoop_fixed ?_ ?_ 30
  · unfold radtanDistort
    simp
  · unfold radtanJacobian
    simp

/-- C66: how the loop ends: after at most `n` rounds, either with a step from an iterate whose distortion was within the
tolerance of the given point, or with all rounds used. -/
theorem newtonLoop_end {distort : ℝ × ℝ → ℝ × ℝ} {jac : ℝ × ℝ → M2} {tol : ℝ} {y : ℝ × ℝ} :
    ∀ {n : Nat} {q r : ℝ × ℝ}, newtonLoop distort jac tol y n q = some r →
      (∃ (its : Nat → ℝ × ℝ) (m : Nat), its 0 = q ∧ its m = r ∧ m ≤ n ∧
        (∀ j < m, (jac (its j)).a * ((its (j + 1)).1 - (its j).1) + (jac (its j)).b * ((its (j + 1)).2 - (its j).2) =
            y.1 - (distort (its j)).1 ∧
          (jac (its j)).c * ((its (j + 1)).1 - (its j).1) + (jac (its j)).d * ((its (j + 1)).2 - (its j).2) =
            y.2 - (distort (its j)).2) ∧
        (m = n ∨ ∃ j, j + 1 = m ∧
          (y.1 - (distort (its j)).1) ^ 2 + (y.2 - (distort (its j)).2) ^ 2 ≤ tol)) := by
  intro n
  induction n with
  | zero =>
    intro q r h
    unfold newtonLoop at h
    injection h with h
    subst h
    exact ⟨fun _ => q, 0, rfl, rfl, Nat.le_refl _, fun j hj => absurd hj (Nat.not_lt_zero j), Or.inl rfl⟩
  | succ n ih =>
    intro q r h
    unfold newtonLoop at h
    simp only at h
    cases hs : newtonStep (jac q) (y.1 - (distort q).1, y.2 - (distort q).2) with
    | none =>
      rw [hs] at h
      cases h
    | some du =>
      rw [hs] at h
      obtain ⟨e1, e2⟩ := newtonStep_solves hs
      simp only at e1 e2 h
      split at h
      · rename_i htol
        injection h with h
        refine ⟨fun j => if j = 0 then q else r, 1, rfl, rfl, by omega, ?_, Or.inr ⟨0, rfl, ?_⟩⟩
        · intro j hj
          have hj0 : j = 0 := by omega
          subst hj0
          simp only [if_true, Nat.zero_add, Nat.one_ne_zero, if_false]
          rw [← h]
          simp only [add_sub_cancel_left]
          exact ⟨e1, e2⟩
        · simp only [if_true]
          rw [pow_two, pow_two]
          exact htol
      · obtain ⟨its, m, h0, hm, hle, hstep, hend⟩ := ih h
        refine ⟨fun j => match j with | 0 => q | j + 1 => its j, m + 1, rfl, hm, by omega, ?_, ?_⟩
        · intro j hj
          cases j with
          | zero =>
            simp only [h0, add_sub_cancel_left]
            exact ⟨e1, e2⟩
          | succ j => exact hstep j (by omega)
        · rcases hend with h | ⟨j, hj, hb⟩
          · exact Or.inl (by omega)
          · exact Or.inr ⟨j + 1, by omega, hb⟩

/-- For small angles the distorted angle is near the tangent of the angle. -/
theorem thetad_near {k : Fin 4 → ℝ} {K r : ℝ} (hk : ∀ i, |k i| ≤ K) (h0 : 0 < r) (h1 : r ≤ 1) :
    |thetad k (Real.arctan r) - r| ≤ (1 + 4 * K) * r ^ 3 := by
  have hK : 0 ≤ K := (abs_nonneg _).trans (hk 0)
  set t := Real.arctan r with ht
  have t0 : 0 < t := Real.arctan_pos.2 h0
  have t1 : t < r := arctan_lt h0
  have t2 : r - r ^ 3 ≤ t := by
    have h := (Real.sin_lt t0).le
    rw [ht, Real.sin_arctan] at h
    have hs : Real.sqrt (1 + r ^ 2) ≤ 1 + r ^ 2 := by
      rw [Real.sqrt_le_left (by positivity)]
      nlinarith [sq_nonneg r]
    have hp : 0 < Real.sqrt (1 + r ^ 2) := Real.sqrt_pos.2 (by positivity)
    have h2 : r / (1 + r ^ 2) ≤ r / Real.sqrt (1 + r ^ 2) := div_le_div_of_nonneg_left h0.le hp hs
    have h3 : r - r ^ 3 ≤ r / (1 + r ^ 2) := by
      rw [le_div_iff₀ (by positivity)]
      have : 0 ≤ r ^ 5 := by positivity
      nlinarith
    linarith
  have hb : ∀ i (m : ℕ), 2 ≤ m → |k i * t ^ m| ≤ K * r ^ 2 := by
    intro i m hm
    rw [abs_mul, abs_of_nonneg (by positivity : 0 ≤ t ^ m)]
    refine mul_le_mul (hk i) ?_ (by positivity) hK
    calc t ^ m ≤ t ^ 2 := pow_le_pow_of_le_one t0.le (by linarith) hm
      _ ≤ r ^ 2 := pow_le_pow_left₀ t0.le t1.le 2
  have e : thetad k t - r = (t - r) + t * (k 0 * t ^ 2 + k 1 * t ^ 4 + k 2 * t ^ 6 + k 3 * t ^ 8) := by
    unfold thetad
    simp only
    ring
  rw [e]
  have s1 : |t - r| ≤ r ^ 3 := by
    rw [abs_le]
    constructor
    · linarith
    · have : 0 < r ^ 3 := by positivity
      linarith
  have s2 : |k 0 * t ^ 2 + k 1 * t ^ 4 + k 2 * t ^ 6 + k 3 * t ^ 8| ≤ 4 * (K * r ^ 2) := by
    have b0 := hb 0 2 (by norm_num)
    have b1 := hb 1 4 (by norm_num)
    have b2 := hb 2 6 (by norm_num)
    have b3 := hb 3 8 (by norm_num)
    have a1 := abs_add_le (k 0 * t ^ 2) (k 1 * t ^ 4)
    have a2 := abs_add_le (k 0 * t ^ 2 + k 1 * t ^ 4) (k 2 * t ^ 6)
    have a3 := abs_add_le (k 0 * t ^ 2 + k 1 * t ^ 4 + k 2 * t ^ 6) (k 3 * t ^ 8)
    linarith
  have s3 : |t * (k 0 * t ^ 2 + k 1 * t ^ 4 + k 2 * t ^ 6 + k 3 * t ^ 8)| ≤ r * (4 * (K * r ^ 2)) := by
    rw [abs_mul, abs_of_nonneg t0.le]
    exact mul_le_mul t1.le s2 (abs_nonneg _) h0.le
  calc |t - r + t * (k 0 * t ^ 2 + k 1 * t ^ 4 + k 2 * t ^ 6 + k 3 * t ^ 8)|
      ≤ |t - r| + |t * (k 0 * t ^ 2 + k 1 * t ^ 4 + k 2 * t ^ 6 + k 3 * t ^ 8)| := abs_add_le _ _
    _ ≤ r ^ 3 + r * (4 * (K * r ^ 2)) := add_le_add s1 s3
    _ = (1 + 4 * K) * r ^ 3 := by ring

/-- Near the centre the equidistant model does not iterate; the point it returns is distorted to one that differs from
the given one by a millionth part (times a factor for the coefficients). -/
theorem equidistant_undistort_near (tol : ℝ) {k : Fin 4 → ℝ} {K : ℝ} (hk : ∀ i, |k i| ≤ K) (p : ℝ × ℝ)
    (hp : p.1 * p.1 + p.2 * p.2 < 1e-6) :
    ∃ u, equidistantUndistort tol k p = some u ∧ |(equidistantDistort k u).1 - p.1| ≤ (1 + 4 * K) * 1e-6 * |p.1| ∧
      |(equidistantDistort k u).2 - p.2| ≤ (1 + 4 * K) * 1e-6 * |p.2| := by
  have hK : 0 ≤ K := (abs_nonneg _).trans (hk 0)
  have hc : 0 ≤ (1 + 4 * K) * 1e-6 := by positivity
  refine ⟨p, ?_, ?_⟩
  · unfold equidistantUndistort
    rw [if_pos hp]
  have hsq := norm2_sq p
  have hr0 : 0 ≤ norm2 p := Real.sqrt_nonneg _
  have hr1 : norm2 p * norm2 p ≤ 1e-6 := by rw [hsq]; exact hp.le
  unfold equidistantDistort
  simp only
  split
  · simp only [sub_self, abs_zero]
    exact ⟨mul_nonneg hc (abs_nonneg _), mul_nonneg hc (abs_nonneg _)⟩
  · rename_i hr
    have hpos : 0 < norm2 p := lt_of_lt_of_le (by norm_num) (not_lt.1 hr)
    have key : |(if 1e-8 < norm2 p then thetad k (Real.arctan (norm2 p)) / norm2 p else 1) - 1| ≤ (1 + 4 * K) * 1e-6 := by
      split
      · have h1 : norm2 p ≤ 1 := by nlinarith
        have h := thetad_near hk hpos h1
        have e : thetad k (Real.arctan (norm2 p)) / norm2 p - 1 =
            (thetad k (Real.arctan (norm2 p)) - norm2 p) / norm2 p := by
          field_simp
        rw [e, abs_div, abs_of_pos hpos, div_le_iff₀ hpos]
        refine h.trans ?_
        have : (1 + 4 * K) * norm2 p ^ 3 = (1 + 4 * K) * (norm2 p * norm2 p) * norm2 p := by ring
        rw [this]
        exact mul_le_mul_of_nonneg_right (mul_le_mul_of_nonneg_left hr1 (by positivity)) hpos.le
      · simp only [sub_self, abs_zero]
        exact hc
    have fin : ∀ x s : ℝ, |s - 1| ≤ (1 + 4 * K) * 1e-6 → |x * s - x| ≤ (1 + 4 * K) * 1e-6 * |x| := by
      intro x s h
      rw [show x * s - x = (s - 1) * x by ring, abs_mul]
      exact mul_le_mul_of_nonneg_right h (abs_nonneg _)
    exact ⟨fin _ _ key, fin _ _ key⟩

/-- Near the centre the equidistant model returns the point undistorted although distorting moves it. -/
theorem equidistant_undistort_refuted (tol : ℝ) : equidistantUndistort tol 0 (equidistantDistort 0 (5e-4, 0)) ≠ some (5e-4, 0) := by
  have hn : norm2 ((5e-4 : ℝ), 0) = 5e-4 := by
    unfold norm2
    simp only [mul_zero, add_zero]
    exact Real.sqrt_mul_self (by norm_num)
  have hlt : Real.arctan 5e-4 < 5e-4 := arctan_lt (by norm_num)
  have hpos : 0 < Real.arctan 5e-4 := Real.arctan_pos.2 (by norm_num)
  have hd : equidistantDistort 0 (5e-4, 0) = (Real.arctan 5e-4, 0) := by
    unfold equidistantDistort thetad
    simp only [hn]
    norm_num
    field_simp
  rw [hd]
  unfold equidistantUndistort
  rw [if_pos]
  · intro h
    injection h with h
    have := congrArg Prod.fst h
    simp only at this
    linarith
  · simp only
    norm_num at hlt ⊢
    nlinarith

/-! ## Concrete cases -/

example : radtanJacobian ![1, 0, 0, 0] (1, 2) = ⟨8, 4, 4, 14⟩ := by
  simp [radtanJacobian]
  norm_num

example : IsJacobian (radtanDistort ![1, 0, 0, 0]) ⟨8, 4, 4, 14⟩ (1, 2) := by
  have := radtan_jacobian ![1, 0, 0, 0] (1, 2)
  have e : radtanJacobian ![1, 0, 0, 0] (1, 2) = ⟨8, 4, 4, 14⟩ := by
    simp [radtanJacobian]
    norm_num
  rwa [e] at this

example : IsJacobian (fisheyeDistort (fun _ => 1)) (fisheyeJacobian (fun _ => 1) (0.6, 0.8)) (0.6, 0.8) :=
  fisheye_jacobian_partial _ _ (by rw [norm2_sq]; norm_num)

example : IsJacobian (equidistantDistort ![1, 2, 3, 4]) (equidistantJacobian ![1, 2, 3, 4] (0.6, 0.8)) (0.6, 0.8) := by
  refine equidistant_jacobian_partial _ _ ?_
  unfold norm2
  refine Real.lt_sqrt_of_sq_lt ?_
  norm_num

end Verif.Distortion
