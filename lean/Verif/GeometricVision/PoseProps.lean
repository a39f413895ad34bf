import Mathlib.Tactic.Linarith
import Mathlib.Tactic.NormNum
import Mathlib.Tactic.FieldSimp
import Mathlib.Data.Matrix.Mul
import Mathlib.Data.Fin.VecNotation
import Verif.GeometricVision.Pose

/-! C73 (RANSAC on 3D points), C74 (rotation of covariances), C76 (pose estimators). -/

namespace Verif.GeometricVision

open Verif Matrix
open Verif.Triangulation (V M3 Pose)

/-! ## C74 -/

/-- A rotation (or reflection): the transpose is the inverse. -/
def IsOrthogonal (R : M3) : Prop := R * Rᵀ = 1 ∧ Rᵀ * R = 1

theorem transformation_mul (S T : Pose) :
    covarianceTransformation (S.mul T) = covarianceTransformation S * covarianceTransformation T := by
  simp [covarianceTransformation, Pose.mul, Matrix.fromBlocks_multiply]

theorem transformation_transpose (T : Pose) : (covarianceTransformation T)ᵀ = covarianceTransformation T.inverse := by
  simp [covarianceTransformation, Pose.inverse, Matrix.fromBlocks_transpose]

/-- C74: rotating by `T_C_B * T_B_A` is rotating by `T_B_A` and then by `T_C_B`. -/
theorem rotate_mul (T_C_B T_B_A : Pose) (A : Matrix I6 I6 ℝ) :
    rotateCovariance (T_C_B.mul T_B_A) A = rotateCovariance T_C_B (rotateCovariance T_B_A A) := by
  unfold rotateCovariance
  rw [transformation_mul, Matrix.transpose_mul]
  simp only [Matrix.mul_assoc]

/-- C74: rotating back gives the covariance. -/
theorem rotate_inverse (T : Pose) (h : IsOrthogonal T.R) (A : Matrix I6 I6 ℝ) :
    rotateCovariance T.inverse (rotateCovariance T A) = A := by
  rw [← rotate_mul]
  unfold rotateCovariance
  have e : covarianceTransformation (T.inverse.mul T) = 1 := by
    simp [covarianceTransformation, Pose.inverse, Pose.mul, h.2, Matrix.fromBlocks_one]
  rw [e]
  simp

/-- C74: a covariance stays symmetric and positive semidefinite; the translation plays no role. -/
theorem rotate_posSemidef (T : Pose) {A : Matrix I6 I6 ℝ} (hA : A.PosSemidef) : (rotateCovariance T A).PosSemidef := by
  have := hA.mul_mul_conjTranspose_same (covarianceTransformation T)
  rwa [Matrix.conjTranspose_eq_transpose_of_trivial] at this

/-- A rotated covariance is symmetric if the covariance was. -/
theorem rotate_symmetric (T : Pose) {A : Matrix I6 I6 ℝ} (hA : Aᵀ = A) : (rotateCovariance T A)ᵀ = rotateCovariance T A := by
  unfold rotateCovariance
  rw [Matrix.transpose_mul, Matrix.transpose_mul, Matrix.transpose_transpose, hA, Matrix.mul_assoc]

/-- C74: the variance of the rotated quantity in a rotated direction is the variance in the direction.  This determines
the result. -/
theorem rotate_variance (T : Pose) (h : IsOrthogonal T.R) (A : Matrix I6 I6 ℝ) (x y u v : V) :
    Sum.elim (T.R *ᵥ x) (T.R *ᵥ y) ⬝ᵥ (rotateCovariance T A *ᵥ Sum.elim (T.R *ᵥ u) (T.R *ᵥ v)) =
      Sum.elim x y ⬝ᵥ (A *ᵥ Sum.elim u v) := by
  have e : ∀ a b : V, Sum.elim (T.R *ᵥ a) (T.R *ᵥ b) = covarianceTransformation T *ᵥ Sum.elim a b := by
    intro a b
    rw [covarianceTransformation, Matrix.fromBlocks_mulVec]
    simp
  have e1 : (covarianceTransformation T)ᵀ * covarianceTransformation T = 1 := by
    rw [transformation_transpose, ← transformation_mul]
    simp [covarianceTransformation, Pose.inverse, Pose.mul, h.2, Matrix.fromBlocks_one]
  rw [e, e, rotateCovariance, Matrix.mulVec_mulVec, Matrix.mul_assoc, Matrix.mul_assoc, e1, Matrix.mul_one,
    ← Matrix.mulVec_mulVec, Matrix.dotProduct_mulVec, ← Matrix.mulVec_transpose, Matrix.mulVec_mulVec, e1, Matrix.one_mulVec]

/-- C74: the total variance of position and rotation do not change. -/
theorem rotate_trace (T : Pose) (h : IsOrthogonal T.R) (A : Matrix I6 I6 ℝ) :
    (rotateCovariance T A).toBlocks₁₁.trace = A.toBlocks₁₁.trace ∧
      (rotateCovariance T A).toBlocks₂₂.trace = A.toBlocks₂₂.trace := by
  have e : rotateCovariance T A = Matrix.fromBlocks (T.R * A.toBlocks₁₁ * T.Rᵀ) (T.R * A.toBlocks₁₂ * T.Rᵀ)
      (T.R * A.toBlocks₂₁ * T.Rᵀ) (T.R * A.toBlocks₂₂ * T.Rᵀ) := by
    conv_lhs => rw [← Matrix.fromBlocks_toBlocks A]
    simp [rotateCovariance, covarianceTransformation, Matrix.fromBlocks_transpose, Matrix.fromBlocks_multiply]
  rw [e, Matrix.toBlocks_fromBlocks₁₁, Matrix.toBlocks_fromBlocks₂₂]
  constructor <;> rw [Matrix.trace_mul_comm, ← Matrix.mul_assoc, h.2, Matrix.one_mul]

/-- A quarter turn about the z axis is orthogonal. -/
def quarterTurn : M3 := !![0, -1, 0; 1, 0, 0; 0, 0, 1]

theorem quarterTurn_orthogonal : IsOrthogonal quarterTurn := by
  constructor <;>
  · ext i j
    fin_cases i <;> fin_cases j <;> simp [quarterTurn, Matrix.mul_apply, Fin.sum_univ_three]

/-- The quarter turn moves the variance along x to y. -/
example : rotateCovariance ⟨quarterTurn, ![1, 2, 3]⟩ (Matrix.diagonal (Sum.elim ![4, 1, 1] ![1, 1, 9])) =
    Matrix.diagonal (Sum.elim ![1, 4, 1] ![1, 1, 9]) := by
  ext (i | i) (j | j) <;> fin_cases i <;> fin_cases j <;>
    simp [rotateCovariance, covarianceTransformation, quarterTurn, Matrix.mul_apply, Fin.sum_univ_three,
      Matrix.fromBlocks, Matrix.diagonal]

/-! ## C76 -/

/-- The inlier criterion of OpenGV's absolute pose problem, for unit vectors. -/
def AngleInlier (threshold : ℝ) (bearing direction : V) : Prop := 1 - bearing ⬝ᵥ direction < threshold

theorem dot3 (a b : V) : a ⬝ᵥ b = a 0 * b 0 + a 1 * b 1 + a 2 * b 2 := by
  simp [dotProduct, Fin.sum_univ_three]

/-- C76 at the centre of the image: for a measurement at the principal point of an undistorted pinhole camera with focal
length `f`, a landmark in front of the camera is an inlier exactly if it projects less than `pixel_sigma` away. -/
theorem threshold_center_partial (f sigma : ℝ) (hf : 0 < f) (hs : 0 < sigma) (p : V) (hz : 0 < p 2) :
    AngleInlier (ransacThreshold sigma f) ![0, 0, 1] (normalize p) ↔
      Real.sqrt ((f * (p 0 / p 2)) ^ 2 + (f * (p 1 / p 2)) ^ 2) < sigma := by
  have hpp : 0 < p ⬝ᵥ p := by
    rw [dot3]
    nlinarith [mul_self_nonneg (p 0), mul_self_nonneg (p 1), mul_pos hz hz]
  unfold AngleInlier ransacThreshold normalize
  rw [if_pos hpp, Real.cos_arctan, dot3]
  simp only [Matrix.cons_val_zero, Matrix.cons_val_one, zero_mul, zero_add]
  rw [show (![0, 0, 1] : V) 2 = 1 from rfl, one_mul, sub_lt_sub_iff_left]
  have h1 : 0 < 1 + (sigma / f) ^ 2 := by positivity
  have h2 : 0 < Real.sqrt (1 + (sigma / f) ^ 2) := Real.sqrt_pos.2 h1
  have h3 : 0 < Real.sqrt (p ⬝ᵥ p) := Real.sqrt_pos.2 hpp
  rw [div_lt_div_iff₀ h2 h3, one_mul, Real.sqrt_lt' hs]
  have e : p 2 * Real.sqrt (1 + (sigma / f) ^ 2) = Real.sqrt (p 2 ^ 2 * (1 + (sigma / f) ^ 2)) := by
    rw [Real.sqrt_mul (sq_nonneg _), Real.sqrt_sq hz.le]
  rw [e, Real.sqrt_lt_sqrt_iff hpp.le, dot3]
  have hf2 : 0 < f ^ 2 := by positivity
  have hz2 : 0 < p 2 ^ 2 := by positivity
  have l : p 0 * p 0 + p 1 * p 1 + p 2 * p 2 < p 2 ^ 2 * (1 + (sigma / f) ^ 2) ↔
      (p 0 * p 0 + p 1 * p 1) * f ^ 2 < sigma ^ 2 * p 2 ^ 2 := by
    rw [div_pow]
    have : p 2 ^ 2 * (1 + sigma ^ 2 / f ^ 2) = p 2 * p 2 + sigma ^ 2 * p 2 ^ 2 / f ^ 2 := by ring
    rw [this, add_comm (p 0 * p 0 + p 1 * p 1), add_lt_add_iff_left, lt_div_iff₀ hf2]
  have r : (f * (p 0 / p 2)) ^ 2 + (f * (p 1 / p 2)) ^ 2 < sigma ^ 2 ↔
      (p 0 * p 0 + p 1 * p 1) * f ^ 2 < sigma ^ 2 * p 2 ^ 2 := by
    have : (f * (p 0 / p 2)) ^ 2 + (f * (p 1 / p 2)) ^ 2 = (p 0 * p 0 + p 1 * p 1) * f ^ 2 / p 2 ^ 2 := by
      rw [mul_pow, mul_pow, div_pow, div_pow]
      field_simp
    rw [this, div_lt_iff₀ hz2]
  rw [l, r]

/-- The hypotheses and both sides of `threshold_center_partial`: a landmark 3-4-5 pixels away. -/
example : Real.sqrt (((100 : ℝ) * ((![3, 4, 100] : V) 0 / (![3, 4, 100] : V) 2)) ^ 2 +
    (100 * ((![3, 4, 100] : V) 1 / (![3, 4, 100] : V) 2)) ^ 2) = 5 := by
  rw [show (![3, 4, 100] : V) 0 = 3 from rfl, show (![3, 4, 100] : V) 1 = 4 from rfl,
    show (![3, 4, 100] : V) 2 = 100 from rfl, show (((100 : ℝ) * (3 / 100)) ^ 2 + (100 * (4 / 100)) ^ 2) = 5 ^ 2 by norm_num]
  exact Real.sqrt_sq (by norm_num)

/-- C76 fails away from the centre: with focal length 100 a landmark that projects 100 pixels from the measurement is no
inlier for a `pixel_sigma` of 105 if the two lie on opposite sides of the principal point. -/
theorem threshold_refuted : ∃ (f sigma : ℝ) (a b : V), 0 < f ∧ 0 < sigma ∧ 0 < a 2 ∧ 0 < b 2 ∧
    Real.sqrt ((f * (a 0 / a 2) - f * (b 0 / b 2)) ^ 2 + (f * (a 1 / a 2) - f * (b 1 / b 2)) ^ 2) < sigma ∧
    ¬ AngleInlier (ransacThreshold sigma f) (normalize a) (normalize b) := by
  have a0 : (![-1, 0, 2] : V) 0 = -1 := rfl
  have a1 : (![-1, 0, 2] : V) 1 = 0 := rfl
  have a2 : (![-1, 0, 2] : V) 2 = 2 := rfl
  have b0 : (![1, 0, 2] : V) 0 = 1 := rfl
  have b1 : (![1, 0, 2] : V) 1 = 0 := rfl
  have b2 : (![1, 0, 2] : V) 2 = 2 := rfl
  refine ⟨100, 105, ![-1, 0, 2], ![1, 0, 2], by norm_num, by norm_num, by rw [a2]; norm_num, by rw [b2]; norm_num, ?_, ?_⟩
  · rw [a0, a1, a2, b0, b1, b2, Real.sqrt_lt' (by norm_num)]
    norm_num
  · unfold AngleInlier ransacThreshold normalize
    rw [Real.cos_arctan, if_pos (by rw [dot3, a0, a1, a2]; norm_num), if_pos (by rw [dot3, b0, b1, b2]; norm_num), dot3,
      sub_lt_sub_iff_left, not_lt]
    simp only [a0, a1, a2, b0, b1, b2]
    rw [dot3, dot3, a0, a1, a2, b0, b1, b2, show (-1 * -1 + 0 * 0 + 2 * 2 : ℝ) = 5 by norm_num,
      show (1 * 1 + 0 * 0 + 2 * 2 : ℝ) = 5 by norm_num]
    have h5 : Real.sqrt 5 * Real.sqrt 5 = 5 := Real.mul_self_sqrt (by norm_num)
    have e : -1 / Real.sqrt 5 * (1 / Real.sqrt 5) + 0 / Real.sqrt 5 * (0 / Real.sqrt 5) +
        2 / Real.sqrt 5 * (2 / Real.sqrt 5) = 3 / 5 := by
      have : -1 / Real.sqrt 5 * (1 / Real.sqrt 5) + 0 / Real.sqrt 5 * (0 / Real.sqrt 5) +
        2 / Real.sqrt 5 * (2 / Real.sqrt 5) = 3 / (Real.sqrt 5 * Real.sqrt 5) := by ring
      rw [this, h5]
    rw [e, div_le_div_iff₀ (by norm_num) (Real.sqrt_pos.2 (by norm_num))]
    have : Real.sqrt (1 + (105 / 100) ^ 2) ≤ 5 / 3 := by
      rw [Real.sqrt_le_left (by norm_num)]
      norm_num
    linarith

/-- C76: the threshold is positive, less than one, and grows with the tolerance. -/
theorem threshold_range (f sigma : ℝ) (hf : 0 < f) (hs : 0 < sigma) :
    0 < ransacThreshold sigma f ∧ ransacThreshold sigma f < 1 ∧
      ∀ tau, sigma < tau → ransacThreshold sigma f < ransacThreshold tau f := by
  have key : ∀ s t : ℝ, 0 ≤ s → s < t → ransacThreshold s f < ransacThreshold t f := by
    intro s t h0 hst
    unfold ransacThreshold
    rw [sub_lt_sub_iff_left, Real.cos_arctan, Real.cos_arctan]
    apply one_div_lt_one_div_of_lt (Real.sqrt_pos.2 (by positivity))
    apply Real.sqrt_lt_sqrt (by positivity)
    have : s / f < t / f := div_lt_div_of_pos_right hst hf
    have h0' : 0 ≤ s / f := div_nonneg h0 hf.le
    nlinarith
  refine ⟨?_, ?_, fun tau ht => key _ _ hs.le ht⟩
  · have := key 0 sigma le_rfl hs
    simpa [ransacThreshold] using this
  · have : 0 < Real.cos (Real.arctan (sigma / f)) := Real.cos_arctan_pos _
    unfold ransacThreshold
    linarith

/-- C76: `T_G_C` is written only on success; inliers and iterations are those of the run; the pairs are those of the caller
in their order. -/
theorem pnp_result (ransac : List V → List V → ℝ → Nat → RansacResult) (c : PnpCamera) (ms : List (ℝ × ℝ))
    (ls : List V) (sigma : ℝ) (n : Nat) (T : Pose) (hl : ms.length = ls.length) (hc : c.supported = true) :
    ∃ bs r, bs.length = ls.length ∧
      (∀ (i : Nat) (m : ℝ × ℝ), ms[i]? = some m → bs[i]? = some (normalize (c.backProject m).1)) ∧
      r = ransac bs ls (ransacThreshold sigma ((c.fu + c.fv) / 2)) n ∧
      absolutePoseRansacPinholeCam ransac c ms ls sigma n T =
        .ok (r.success, if r.success = true then r.model else T, r.inliers, r.iterations) := by
  refine ⟨ms.map fun m => normalize (c.backProject m).1, _, by simp [hl], ?_, rfl, ?_⟩
  · intro i m h
    simp [h]
  · unfold absolutePoseRansacPinholeCam absolutePoseRansac
    rw [if_pos hl, if_pos hc, if_pos hl]

/-- C76: other cameras, and lists of different length, end the program. -/
theorem pnp_rejects (ransac : List V → List V → ℝ → Nat → RansacResult) (c : PnpCamera) (ms : List (ℝ × ℝ))
    (ls : List V) (sigma : ℝ) (n : Nat) (T : Pose) (h : ms.length ≠ ls.length ∨ c.supported = false) :
    absolutePoseRansacPinholeCam ransac c ms ls sigma n T = .abort := by
  unfold absolutePoseRansacPinholeCam
  rcases h with h | h
  · rw [if_neg h]
  · simp [h]

/-- C76 fails for keypoints that cannot be back-projected: the run is given whatever the camera left. -/
theorem pnp_failure_refuted (ransac : List V → List V → ℝ → Nat → RansacResult) (c c' : PnpCamera)
    (h : ∀ m, (c.backProject m).1 = (c'.backProject m).1) (ms : List (ℝ × ℝ)) (ls : List V) (t : ℝ) (n : Nat) (T : Pose) :
    absolutePoseRansac ransac c ms ls t n T = absolutePoseRansac ransac c' ms ls t n T := by
  unfold absolutePoseRansac
  simp only [h]

/-- The rig's focal length is the mean over the cameras and both axes. -/
theorem focalSum_eq (cs : List PnpCamera) (s : ℝ) (h : ∀ c ∈ cs, c.supported = true) :
    focalSum cs s = .ok (s + (cs.map fun c => c.fu + c.fv).sum) := by
  induction cs generalizing s with
  | nil => simp [focalSum]
  | cons c cs ih =>
    simp only [focalSum]
    rw [if_pos (h c List.mem_cons_self), ih _ fun d hd => h d (List.mem_cons_of_mem _ hd)]
    simp [add_assoc]

/-- C76 for rigs: the threshold is that for the mean of the focal lengths of the cameras. -/
theorem multi_threshold (cs : List PnpCamera) (sigma : ℝ) (hne : cs ≠ []) (h : ∀ c ∈ cs, c.supported = true) :
    multiThreshold cs sigma =
      .ok (some (ransacThreshold sigma ((cs.map fun c => (c.fu + c.fv) / 2).sum / cs.length))) := by
  have e : (cs.map fun c => (c.fu + c.fv) / 2).sum = (cs.map fun c => c.fu + c.fv).sum / 2 := by
    clear h hne
    induction cs with
    | nil => simp
    | cons c cs ih =>
      simp only [List.map_cons, List.sum_cons, ih]
      ring
  unfold multiThreshold
  rw [focalSum_eq cs 0 h, Outcome.bind_ok, if_neg (by simpa using hne), zero_add, e, div_div]

/-- One camera of the rig is as good as the single-camera estimator. -/
theorem multi_threshold_single (c : PnpCamera) (sigma : ℝ) (h : c.supported = true) :
    multiThreshold [c] sigma = .ok (some (ransacThreshold sigma ((c.fu + c.fv) / 2))) := by
  rw [multi_threshold [c] sigma (by simp) (by simpa using h)]
  simp

theorem multiBearings_ok {cs : List PnpCamera} {ms : List (ℝ × ℝ)} {is : List Nat} (hl : ms.length = is.length)
    (hi : ∀ i ∈ is, i < cs.length) :
    ∃ bs, multiBearings cs ms is = .ok bs ∧ bs.length = ms.length ∧
      ∀ (j i : Nat) (m : ℝ × ℝ) (c : PnpCamera), ms[j]? = some m → is[j]? = some i → cs[i]? = some c →
        bs[j]? = some (normalize (c.backProject m).1) := by
  induction ms generalizing is with
  | nil => exact ⟨[], by simp [multiBearings], rfl, by simp⟩
  | cons m ms ih =>
    cases is with
    | nil => simp at hl
    | cons i is =>
      obtain ⟨bs, e, l, s⟩ := ih (is := is) (by simpa using hl) fun j hj => hi j (List.mem_cons_of_mem _ hj)
      have hk := List.getElem?_eq_getElem (hi i List.mem_cons_self)
      refine ⟨normalize (cs[i]'(hi i List.mem_cons_self) |>.backProject m).1 :: bs, ?_, by simp [l], ?_⟩
      · simp only [multiBearings, hk]
        rw [e]
        rfl
      · intro j i' m' c hj hi' hc
        cases j with
        | zero =>
          simp only [List.getElem?_cons_zero, Option.some.injEq] at hj hi' ⊢
          subst hj hi'
          rw [hk] at hc
          rw [Option.some.inj hc]
        | succ j =>
          simp only [List.getElem?_cons_succ] at hj hi' ⊢
          exact s j i' m' c hj hi' hc

/-- C76 for rigs: every measurement is back-projected by its own camera; the poses given to OpenGV take camera coordinates to
body coordinates, so they undo the extrinsics of the rig; the transformation is written only on success, refined if asked
for. -/
theorem multi_result (ransac : MultiProblem → ℝ → Nat → RansacResult) (refine_ : MultiProblem → List Nat → Pose → Pose)
    (refinement : Bool) (cs : List PnpCamera) (Ts : List Pose) (ms : List (ℝ × ℝ)) (is : List Nat) (ls : List V)
    (t : ℝ) (n : Nat) (T : Pose) (hl : ms.length = ls.length) (hi : ms.length = is.length) (hc : ∀ i ∈ is, i < cs.length)
    (hT : ∀ S ∈ Ts, IsOrthogonal S.R) :
    ∃ p r, r = ransac p t n ∧ p.cameraIndices = is ∧ p.landmarks = ls ∧ p.bearings.length = ms.length ∧
      (∀ (j i : Nat) (m : ℝ × ℝ) (c : PnpCamera), ms[j]? = some m → is[j]? = some i → cs[i]? = some c →
        p.bearings[j]? = some (normalize (c.backProject m).1)) ∧
      p.cameras.length = Ts.length ∧
      (∀ (i : Nat) (S B : Pose), Ts[i]? = some S → p.cameras[i]? = some B →
        (∀ v, S.act (B.act v) = v) ∧ ∀ v, B.act (S.act v) = v) ∧
      absoluteMultiPoseRansac ransac refine_ refinement cs Ts ms is ls t n T =
        .ok (r.success,
          if r.success = true then (if refinement = true then refine_ p r.inliers r.model else r.model) else T,
          r.inliers, r.iterations) := by
  obtain ⟨bs, e, l, s⟩ := multiBearings_ok hi hc
  refine ⟨⟨bs, is, ls, Ts.map Pose.inverse⟩, _, rfl, rfl, rfl, l, s, by simp, ?_, ?_⟩
  · intro i S B hS hB
    simp only [List.getElem?_map, hS, Option.map_some, Option.some.injEq] at hB
    subst hB
    obtain ⟨h1, h2⟩ := hT S (List.mem_of_getElem? hS)
    constructor
    · intro v
      simp only [Pose.act, Pose.inverse]
      rw [Matrix.mulVec_add, Matrix.mulVec_neg, Matrix.mulVec_mulVec, Matrix.mulVec_mulVec, h1, Matrix.one_mulVec,
        Matrix.one_mulVec]
      simp
    · intro v
      simp only [Pose.act, Pose.inverse]
      rw [Matrix.mulVec_add, Matrix.mulVec_mulVec, h2, Matrix.one_mulVec]
      simp
  · unfold absoluteMultiPoseRansac
    rw [if_pos ⟨hl, hi⟩, e, Outcome.bind_ok]

/-! ## C73 -/

theorem classify_eq (threshold : ℝ) (m : Pose) (i : Nat) (xs : List (V × V)) (r : List Nat × List Nat) :
    classify threshold m i xs r =
      (r.1 ++ ((xs.zipIdx i).filter fun e => !isOutlier threshold m e.1.1 e.1.2).map Prod.snd,
        r.2 ++ ((xs.zipIdx i).filter fun e => isOutlier threshold m e.1.1 e.1.2).map Prod.snd) := by
  induction xs generalizing i r with
  | nil => simp [classify]
  | cons x xs ih =>
    simp only [classify, List.zipIdx_cons, List.filter_cons, ih]
    by_cases h : isOutlier threshold m x.1 x.2 = true
    · simp [h]
    · simp [h]

/-- The positions of the pairs that a transformation maps close enough, in increasing order. -/
noncomputable def inliersOf (threshold : ℝ) (m : Pose) (xs : List (V × V)) : List Nat :=
  ((xs.zipIdx 0).filter fun e => !isOutlier threshold m e.1.1 e.1.2).map Prod.snd

/-- C73: the inliers of a transformation are, in increasing order, the pairs for which the distance of the mapped point from
the observation, in relation to the distance of the observation, is at most the threshold. -/
theorem inliersOf_spec (threshold : ℝ) (m : Pose) (xs : List (V × V)) :
    (inliersOf threshold m xs).Pairwise (· < ·) ∧ ∀ i, i ∈ inliersOf threshold m xs ↔ ∃ p q, xs[i]? = some (p, q) ∧
      (norm q = 0 ∧ norm (m.act p - q) = 0 ∨ 0 < norm q ∧ norm (m.act p - q) ≤ threshold * norm q) := by
  constructor
  · unfold inliersOf
    rw [List.pairwise_map]
    apply List.Pairwise.filter
    have h : (xs.zipIdx 0).map Prod.snd = List.range' 0 xs.length := List.zipIdx_map_snd 0 xs
    have h2 : ((xs.zipIdx 0).map Prod.snd).Pairwise (· < ·) := by
      rw [h]
      exact List.pairwise_lt_range'
    rwa [List.pairwise_map] at h2
  · intro i
    unfold inliersOf
    rw [List.mem_map]
    have hn : ∀ q : V, norm q = 0 ∨ 0 < norm q := fun q => (Real.sqrt_nonneg _).eq_or_lt.imp Eq.symm id
    have key : ∀ p q : V, isOutlier threshold m p q = false ↔
        (norm q = 0 ∧ norm (m.act p - q) = 0 ∨ 0 < norm q ∧ norm (m.act p - q) ≤ threshold * norm q) := by
      intro p q
      unfold isOutlier
      rcases hn q with h | h
      · rw [if_pos h]
        simp [h]
      · rw [if_neg h.ne']
        simp only [gt_iff_lt, decide_eq_false_iff_not, not_lt, div_le_iff₀ h, h, h.ne', true_and, false_and, false_or]
    constructor
    · rintro ⟨⟨⟨p, q⟩, j⟩, h, rfl⟩
      rw [List.mem_filter] at h
      obtain ⟨h1, h2⟩ := h
      have h3 := List.mem_zipIdx_iff_getElem?.1 h1
      exact ⟨p, q, h3, (key p q).1 (by simpa using h2)⟩
    · rintro ⟨p, q, h1, h2⟩
      refine ⟨((p, q), i), List.mem_filter.2 ⟨List.mem_zipIdx_iff_getElem?.2 h1, ?_⟩, rfl⟩
      simpa using (key p q).2 h2

theorem ransacLoop_spec (fit : Nat → Pose) (threshold ratio : ℝ) (xs : List (V × V)) (n j : Nat) (b : Best) :
    (ransacLoop fit threshold ratio xs n j b).1.model = b.model ∧
      (ransacLoop fit threshold ratio xs n j b).1.outliers = b.outliers ∧
      (0 < n → ∃ k, (ransacLoop fit threshold ratio xs n j b).2 = some k ∧ j ≤ k ∧ k < j + n ∧
        (ransacLoop fit threshold ratio xs n j b).1.inliers = inliersOf threshold (fit k) xs) := by
  induction n generalizing j b with
  | zero => exact ⟨rfl, rfl, fun h => absurd h (lt_irrefl _)⟩
  | succ n ih =>
    have e : (classify threshold (fit j) 0 xs ([], [])).1 = inliersOf threshold (fit j) xs := by
      rw [classify_eq]
      simp [inliersOf]
    simp only [ransacLoop, gt_iff_lt, lt_irrefl, if_false]
    split
    · exact ⟨rfl, rfl, fun _ => ⟨j, rfl, le_rfl, by omega, e⟩⟩
    · obtain ⟨h1, h2, h3⟩ := ih (j + 1) { b with inliers := (classify threshold (fit j) 0 xs ([], [])).1 }
      refine ⟨h1, h2, fun _ => ?_⟩
      cases n with
      | zero => exact ⟨j, rfl, le_rfl, by omega, e⟩
      | succ n =>
        obtain ⟨k, hk, h4, h5, h6⟩ := h3 (by omega)
        refine ⟨k, ?_, by omega, by omega, h6⟩
        rw [hk]
        rfl

section Pose3d

variable (fit : Nat → Pose) (garbage : Pose) (ms ls : List V) (is : List Nat) (threshold : ℝ) (n : Nat) (ratio : ℝ)
  (camera0 T : Pose)

/-- C73, what holds: with more than six pairs the function reports success, and the inliers are, in increasing order, the
pairs that one of the transformations tried maps close enough to the observation in the body frame of camera 0. -/
theorem pose3d_inliers_partial (h : ms.length = ls.length) (h7 : 6 < ms.length) (ht : 0 < threshold) (hn : 0 < n) :
    ∃ r k, pose3d fit garbage ms is ls threshold n ratio camera0 T = .ok r ∧ r.success = true ∧ k < n ∧
      r.inliers = inliersOf threshold (fit k) (ls.zip (ms.map camera0.inverse.act)) ∧ r.iterations = some n := by
  obtain ⟨-, -, h3⟩ := ransacLoop_spec fit threshold ratio (ls.zip (ms.map camera0.inverse.act)) n 0 ⟨garbage, [], []⟩
  obtain ⟨k, -, -, h4, h5⟩ := h3 hn
  unfold pose3d
  rw [if_neg (not_not.2 h), if_neg (by omega)]
  simp only
  unfold ransac3d
  rw [if_pos ⟨ht, hn, by simp [h], by simpa using h7⟩]
  exact ⟨_, k, rfl, rfl, by omega, h5, rfl⟩

/-- C73 fails: whatever the points, the thresholds and the transformations tried, the "result" has the rotation that the
caller's variable had before and the position of an uninitialised variable. -/
theorem pose3d_transformation_refuted (h : ms.length = ls.length) (h7 : 6 < ms.length) (ht : 0 < threshold) (hn : 0 < n) :
    ∃ r, pose3d fit garbage ms is ls threshold n ratio camera0 T = .ok r ∧ r.success = true ∧ r.T.R = T.R ∧
      r.T.p = garbage.p := by
  obtain ⟨h1, -, -⟩ := ransacLoop_spec fit threshold ratio (ls.zip (ms.map camera0.inverse.act)) n 0 ⟨garbage, [], []⟩
  unfold pose3d
  rw [if_neg (not_not.2 h), if_neg (by omega)]
  simp only
  unfold ransac3d
  rw [if_pos ⟨ht, hn, by simp [h], by simpa using h7⟩]
  refine ⟨_, rfl, rfl, rfl, ?_⟩
  simp only
  rw [h1]

/-- C73 fails for two to six pairs: instead of reporting failure the function ends the program. -/
theorem pose3d_few_refuted (h2 : 2 ≤ ms.length) (h6 : ms.length ≤ 6) :
    pose3d fit garbage ms is ls threshold n ratio camera0 T = .abort := by
  unfold pose3d
  by_cases h : ms.length = ls.length
  · rw [if_neg (not_not.2 h), if_neg (by omega)]
    simp only
    unfold ransac3d
    rw [if_neg]
    · rfl
    · simp only [List.length_map]
      omega
  · rw [if_pos h]

/-- With fewer than two pairs it does report failure, and leaves the transformation alone. -/
theorem pose3d_fewer (h : ms.length = ls.length) (h2 : ms.length < 2) :
    pose3d fit garbage ms is ls threshold n ratio camera0 T = .ok ⟨false, T, [], [], none⟩ := by
  unfold pose3d
  rw [if_neg (not_not.2 h), if_pos (by omega)]

/-- C73 fails for rigs: it makes no difference which camera a measurement is said to come from. -/
theorem pose3d_camera_refuted (is' : List Nat) :
    pose3d fit garbage ms is ls threshold n ratio camera0 T =
      pose3d fit garbage ms is' ls threshold n ratio camera0 T := rfl

end Pose3d

theorem norm_zero : norm 0 = 0 := by simp [norm]

theorem act_one (v : V) : Pose.act ⟨1, 0⟩ v = v := by simp [Pose.act]

/-- C73 fails for the inliers too: the transformation tried first maps all seven points exactly, and yet the inliers returned
are those of the one tried last, of which there are none. -/
theorem pose3d_best_refuted : ∃ (fit : Nat → Pose) (ms ls : List V), ms.length = 7 ∧ ls = ms ∧ fit 0 = ⟨1, 0⟩ ∧
    inliersOf 1 (fit 0) (ls.zip (ms.map (Pose.inverse ⟨1, 0⟩).act)) = [0, 1, 2, 3, 4, 5, 6] ∧
    ∀ garbage T, ∃ r, pose3d fit garbage ms [] ls 1 2 1 ⟨1, 0⟩ T = .ok r ∧ r.success = true ∧ r.inliers = [] := by
  let p : V := ![1, 0, 0]
  have hp : norm p = 1 := by simp [norm, p]
  have hi : (Pose.inverse ⟨1, 0⟩).act = id := by
    funext v
    simp [Pose.act, Pose.inverse]
  have good : isOutlier 1 ⟨1, 0⟩ p p = false := by
    unfold isOutlier
    rw [act_one, sub_self, norm_zero, hp, if_neg one_ne_zero]
    simp
  have bad : isOutlier 1 ⟨1, ![5, 0, 0]⟩ p p = true := by
    unfold isOutlier
    have e : Pose.act ⟨1, ![5, 0, 0]⟩ p - p = ![5, 0, 0] := by
      simp [Pose.act]
    have e5 : norm ![5, 0, 0] = 5 := by
      simp [norm]
    rw [e, e5, hp, if_neg one_ne_zero]
    norm_num
  refine ⟨fun j => if j = 0 then ⟨1, 0⟩ else ⟨1, ![5, 0, 0]⟩, List.replicate 7 p, List.replicate 7 p, rfl, rfl, rfl, ?_, ?_⟩
  · rw [hi, List.map_id]
    simp [inliersOf, List.replicate, good, List.zipIdx, List.filter]
  · intro garbage T
    unfold pose3d
    rw [hi, List.map_id, if_neg (by simp), if_neg (by simp)]
    simp only
    unfold ransac3d
    rw [if_pos (by norm_num)]
    refine ⟨_, rfl, rfl, ?_⟩
    simp [ransacLoop, classify_eq, List.replicate, good, bad, List.zipIdx, List.filter]

end Verif.GeometricVision
