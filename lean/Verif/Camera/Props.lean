import Verif.Camera.Model
import Verif.Distortion.Props

/-!
# Properties of the cameras (C49–C52, C67)
-/

namespace Verif.Camera

open Verif.Distortion (M2 Model IsJacobian IsParameterJacobian row)
open Classical

/-! ## Specification -/

/-- The linear maps with a given row. -/
noncomputable def row3 (a b c : ℝ) : V3 →L[ℝ] ℝ :=
  a • ContinuousLinearMap.fst ℝ ℝ (ℝ × ℝ) +
    (row b c).comp (ContinuousLinearMap.snd ℝ ℝ (ℝ × ℝ))

noncomputable def row4 (a b c d : ℝ) : V4 →L[ℝ] ℝ :=
  a • ContinuousLinearMap.fst ℝ ℝ V3 + (row3 b c d).comp (ContinuousLinearMap.snd ℝ ℝ V3)

/-- Near the point the map is finite, and the matrix is its derivative there. -/
def IsPointJacobian (F : V3 → Option V2) (J : J23) (p : V3) : Prop :=
  ∃ f : V3 → V2, (∀ᶠ q in nhds p, F q = some (f q)) ∧
    HasFDerivAt (fun q => (f q).1) (row3 J.a J.b J.c) p ∧ HasFDerivAt (fun q => (f q).2) (row3 J.d J.e J.f) p

def IsHomogeneousJacobian (F : V4 → Option V2) (J : J24) (p : V4) : Prop :=
  ∃ f : V4 → V2, (∀ᶠ q in nhds p, F q = some (f q)) ∧
    HasFDerivAt (fun q => (f q).1) (row4 J.a J.b J.c J.d) p ∧ HasFDerivAt (fun q => (f q).2) (row4 J.e J.f J.g J.h) p

/-- For small changes of a parameter the map is finite, and the columns are its derivatives with respect to the
parameters. -/
def IsColumns {m : Nat} (F : (Fin m → ℝ) → Option V2) (J : Fin m → V2) (t : Fin m → ℝ) : Prop :=
  ∀ i, ∃ f : ℝ → V2, (∀ᶠ s in nhds (t i), F (Function.update t i s) = some (f s)) ∧
    HasDerivAt (fun s => (f s).1) (J i).1 (t i) ∧ HasDerivAt (fun s => (f s).2) (J i).2 (t i)

/-- The point `s · p`. -/
def scale (s : ℝ) (p : V3) : V3 := (s * p.1, s * p.2.1, s * p.2.2)

/-- The keypoint lies in the image. -/
def InImage (b : Box) (k : V2) : Prop := 0 ≤ k.1 ∧ k.1 < b.width ∧ 0 ≤ k.2 ∧ k.2 < b.height

/-! ## Derivatives -/

theorem row3_apply (a b c : ℝ) (v : V3) : row3 a b c v = a * v.1 + b * v.2.1 + c * v.2.2 := by
  unfold row3 row
  simp
  ring

theorem row4_apply (a b c d : ℝ) (v : V4) : row4 a b c d v = a * v.1 + b * v.2.1 + c * v.2.2.1 + d * v.2.2.2 := by
  unfold row4
  simp [row3_apply]
  ring

theorem row3_ext {a b c a' b' c' : ℝ} (h1 : a = a') (h2 : b = b') (h3 : c = c') : row3 a b c = row3 a' b' c' := by
  rw [h1, h2, h3]

theorem row4_inj {a b c d a' b' c' d' : ℝ} (h : row4 a b c d = row4 a' b' c' d') : a = a' ∧ b = b' ∧ c = c' ∧ d = d' := by
  have h1 := congrArg (fun L => L (1, 0, 0, 0)) h
  have h2 := congrArg (fun L => L (0, 1, 0, 0)) h
  have h3 := congrArg (fun L => L (0, 0, 1, 0)) h
  have h4 := congrArg (fun L => L (0, 0, 0, 1)) h
  simp only [row4_apply] at h1 h2 h3 h4
  norm_num at h1 h2 h3 h4
  exact ⟨h1, h2, h3, h4⟩

theorem deriv_x (p : V3) : HasFDerivAt (fun q : V3 => q.1) (row3 1 0 0) p := by
  have : row3 1 0 0 = ContinuousLinearMap.fst ℝ ℝ (ℝ × ℝ) := by
    ext v <;> simp [row3, row]
  rw [this]
  exact hasFDerivAt_fst

theorem deriv_y (p : V3) : HasFDerivAt (fun q : V3 => q.2.1) (row3 0 1 0) p := by
  have : row3 0 1 0 = (ContinuousLinearMap.fst ℝ ℝ ℝ).comp (ContinuousLinearMap.snd ℝ ℝ (ℝ × ℝ)) := by
    ext v <;> simp [row3, row]
  rw [this]
  exact (hasFDerivAt_fst (p := p.2)).comp p hasFDerivAt_snd

theorem deriv_z (p : V3) : HasFDerivAt (fun q : V3 => q.2.2) (row3 0 0 1) p := by
  have : row3 0 0 1 = (ContinuousLinearMap.snd ℝ ℝ ℝ).comp (ContinuousLinearMap.snd ℝ ℝ (ℝ × ℝ)) := by
    ext v <;> simp [row3, row]
  rw [this]
  exact (hasFDerivAt_snd (p := p.2)).comp p hasFDerivAt_snd

theorem D3Add {f g : V3 → ℝ} {a b c a' b' c' : ℝ} {p : V3} (hf : HasFDerivAt f (row3 a b c) p)
    (hg : HasFDerivAt g (row3 a' b' c') p) : HasFDerivAt (fun q => f q + g q) (row3 (a + a') (b + b') (c + c')) p := by
  refine (hf.add hg).congr_fderiv ?_
  apply ContinuousLinearMap.ext
  intro v
  simp only [ContinuousLinearMap.add_apply, row3_apply]
  ring

theorem D3Mul {f g : V3 → ℝ} {a b c a' b' c' : ℝ} {p : V3} (hf : HasFDerivAt f (row3 a b c) p)
    (hg : HasFDerivAt g (row3 a' b' c') p) :
    HasFDerivAt (fun q => f q * g q) (row3 (f p * a' + g p * a) (f p * b' + g p * b) (f p * c' + g p * c)) p := by
  refine (hf.mul hg).congr_fderiv ?_
  apply ContinuousLinearMap.ext
  intro v
  simp only [ContinuousLinearMap.add_apply, ContinuousLinearMap.smul_apply, row3_apply, smul_eq_mul]
  ring

theorem D3Const (p : V3) (r : ℝ) : HasFDerivAt (fun _ : V3 => r) (row3 0 0 0) p := by
  refine (hasFDerivAt_const r p).congr_fderiv ?_
  apply ContinuousLinearMap.ext
  intro v
  simp [row3_apply]

theorem D3Comp {f : V3 → ℝ} {g : ℝ → ℝ} {a b c g' : ℝ} {p : V3} (hg : HasDerivAt g g' (f p))
    (hf : HasFDerivAt f (row3 a b c) p) : HasFDerivAt (fun q => g (f q)) (row3 (g' * a) (g' * b) (g' * c)) p := by
  refine (hg.comp_hasFDerivAt p hf).congr_fderiv ?_
  apply ContinuousLinearMap.ext
  intro v
  simp only [ContinuousLinearMap.smul_apply, row3_apply, smul_eq_mul]
  ring

/-- The chain rule through the normalised image plane. -/
theorem D3Plane {g : ℝ × ℝ → ℝ} {u v : V3 → ℝ} {a b a1 b1 c1 a2 b2 c2 : ℝ} {p : V3}
    (hg : HasFDerivAt g (row a b) (u p, v p)) (hu : HasFDerivAt u (row3 a1 b1 c1) p) (hv : HasFDerivAt v (row3 a2 b2 c2) p) :
    HasFDerivAt (fun q => g (u q, v q)) (row3 (a * a1 + b * a2) (a * b1 + b * b2) (a * c1 + b * c2)) p := by
  have h := HasFDerivAt.comp (f := fun q => (u q, v q)) p hg (hu.prodMk hv)
  refine h.congr_fderiv ?_
  apply ContinuousLinearMap.ext
  intro w
  simp only [ContinuousLinearMap.comp_apply, ContinuousLinearMap.prod_apply, row, ContinuousLinearMap.add_apply,
    ContinuousLinearMap.smul_apply, ContinuousLinearMap.coe_fst', ContinuousLinearMap.coe_snd', row3_apply, smul_eq_mul]
  ring

/-! ## Pinhole (C49, C50) -/

/-- Visible means within the image. -/
theorem visible_iff (b : Box) (k : V2) : isKeypointVisible b k ↔ InImage b k := by
  unfold isKeypointVisible InImage
  constructor
  · rintro ⟨h1, h2, h3, h4⟩
    exact ⟨h1, h3, h2, h4⟩
  · rintro ⟨h1, h2, h3, h4⟩
    exact ⟨h1, h3, h2, h4⟩

section pinhole

variable {n : Nat} (D : Model n) (b : Box) (I : Fin 4 → ℝ) (c : Fin n → ℝ)

/-- The keypoint of a point that is not in the plane of the camera: the pinhole equation with distortion. -/
theorem pinhole_keypoint {p : V3} (hz : p.2.2 ≠ 0) :
    (pinholeProject D b I c p).keypoint =
      some (I 0 * (D.distort c (p.1 / p.2.2, p.2.1 / p.2.2)).1 + I 2,
        I 1 * (D.distort c (p.1 / p.2.2, p.2.1 / p.2.2)).2 + I 3) := by
  unfold pinholeProject
  simp only
  rw [if_neg hz, mul_one_div, mul_one_div]

theorem pinhole_scale (s : ℝ) (hs : s ≠ 0) (p : V3) :
    (pinholeProject D b I c (scale s p)).keypoint = (pinholeProject D b I c p).keypoint := by
  by_cases hz : p.2.2 = 0
  · unfold pinholeProject scale
    simp [hz]
  · have hz' : (scale s p).2.2 ≠ 0 := mul_ne_zero hs hz
    rw [pinhole_keypoint D b I c hz, pinhole_keypoint D b I c hz']
    unfold scale
    simp only
    rw [mul_div_mul_left _ _ hs, mul_div_mul_left _ _ hs]

/-- C49, first half: every point on the ray that back-projection returns projects to the keypoint.  The distortion enters
through the hypothesis that distorting inverts undistorting at this keypoint (true without distortion, and C54 for the
fisheye model). -/
theorem pinhole_project_backProject (hI : PinholeValid I) (k : V2) (r : V3)
    (hr : (pinholeBackProject D I c k).1 = some r)
    (hD : ∀ q, D.undistort c ((k.1 - I 2) / I 0, (k.2 - I 3) / I 1) = some q →
      D.distort c q = ((k.1 - I 2) / I 0, (k.2 - I 3) / I 1)) :
    (pinholeBackProject D I c k).2 = true ∧ r.2.2 = 1 ∧
      ∀ s : ℝ, 0 < s → (pinholeProject D b I c (scale s r)).keypoint = some k := by
  unfold pinholeBackProject at hr ⊢
  simp only at hr
  rw [Option.map_eq_some_iff] at hr
  obtain ⟨q, hq, rfl⟩ := hr
  refine ⟨rfl, rfl, fun s hs => ?_⟩
  rw [pinhole_scale D b I c s hs.ne', pinhole_keypoint D b I c (by simp)]
  simp only [div_one]
  rw [hD q hq]
  obtain ⟨h0, h1, -, -⟩ := hI
  have e1 : I 0 * ((k.1 - I 2) / I 0) + I 2 = k.1 := by
    rw [mul_div_cancel₀ _ h0.ne']
    ring
  have e2 : I 1 * ((k.2 - I 3) / I 1) + I 3 = k.2 := by
    rw [mul_div_cancel₀ _ h1.ne']
    ring
  simp only [e1, e2]

/-- C49, second half: back-projecting the projection of a point gives the point divided by its depth. -/
theorem pinhole_backProject_project (hI : PinholeValid I) (p : V3) (hz : p.2.2 ≠ 0) (k : V2)
    (hk : (pinholeProject D b I c p).keypoint = some k)
    (hD : D.undistort c (D.distort c (p.1 / p.2.2, p.2.1 / p.2.2)) = some (p.1 / p.2.2, p.2.1 / p.2.2)) :
    pinholeBackProject D I c k = (some (scale (1 / p.2.2) p), true) := by
  rw [pinhole_keypoint D b I c hz] at hk
  injection hk with hk
  obtain ⟨h0, h1, -, -⟩ := hI
  unfold pinholeBackProject
  rw [← hk]
  simp only [add_sub_cancel_right]
  rw [mul_div_cancel_left₀ _ h0.ne', mul_div_cancel_left₀ _ h1.ne', hD]
  unfold scale
  simp only [Option.map_some]
  rw [one_div_mul_eq_div, one_div_mul_eq_div, one_div_mul_eq_div, div_self hz]

/-- C49: what the status says. -/
theorem pinhole_status (p : V3) :
    ((pinholeProject D b I c p).status = .visible ↔
        1e-10 < p.2.2 ∧ ∃ k, (pinholeProject D b I c p).keypoint = some k ∧ InImage b k) ∧
      ((pinholeProject D b I c p).status = .outside ↔
        1e-10 < p.2.2 ∧ ∃ k, (pinholeProject D b I c p).keypoint = some k ∧ ¬ InImage b k) ∧
      ((pinholeProject D b I c p).status = .behind ↔ p.2.2 < 0) ∧
      ((pinholeProject D b I c p).status = .invalid ↔ 0 ≤ p.2.2 ∧ p.2.2 ≤ 1e-10) := by
  by_cases hz : p.2.2 = 0
  · have hs : (pinholeProject D b I c p).status = .invalid := by
      unfold pinholeProject
      simp [hz]
    rw [hs, hz]
    refine ⟨iff_of_false (by decide) ?_, iff_of_false (by decide) ?_, iff_of_false (by decide) ?_, ?_⟩ <;> norm_num
  · have hk := pinhole_keypoint D b I c hz
    have hs : ∃ k, (pinholeProject D b I c p).keypoint = some k ∧
        (pinholeProject D b I c p).status = pinholeEvaluate b k p.2.2 := by
      unfold pinholeProject
      simp only
      rw [if_neg hz]
      exact ⟨_, rfl, rfl⟩
    obtain ⟨k, hk, hs⟩ := hs
    rw [hs, hk]
    unfold pinholeEvaluate minimumDepth
    simp only [visible_iff, Option.some.injEq, exists_eq_left']
    by_cases h1 : (1e-10 : ℝ) < p.2.2
    · have h0 : ¬ p.2.2 < 0 := not_lt.2 (le_trans (by norm_num) h1.le)
      by_cases h2 : InImage b k
      · simp [h1, h2, h0]
      · simp [h1, h2, h0]
    · have h1' := not_lt.1 h1
      by_cases h0 : p.2.2 < 0
      · simp [h1, h0]
      · simp [h1, h0, h1', not_lt.1 h0]

/-- C50: the point Jacobian, for every point not in the camera plane, if the distortion's Jacobian is right where it is
used. -/
theorem pinhole_jacobian (p : V3) (hz : p.2.2 ≠ 0)
    (hD : IsJacobian (D.distort c) (D.jacobian c (p.1 / p.2.2, p.2.1 / p.2.2)) (p.1 / p.2.2, p.2.1 / p.2.2)) :
    ∃ J, (pinholeProject D b I c p).jacPoint = some J ∧
      IsPointJacobian (fun q => (pinholeProject D b I c q).keypoint) J p := by
  have hx := deriv_x p
  have hy := deriv_y p
  have hzd := deriv_z p
  have hinv : HasFDerivAt (fun q : V3 => (q.2.2)⁻¹) _ p := D3Comp (hasDerivAt_inv hz) hzd
  have hu := D3Mul hx hinv
  have hv := D3Mul hy hinv
  obtain ⟨hD1, hD2⟩ := hD
  rw [div_eq_mul_inv, div_eq_mul_inv] at hD1 hD2
  have e1 := D3Add (D3Mul (D3Const p (I 0)) (D3Plane hD1 hu hv)) (D3Const p (I 2))
  have e2 := D3Add (D3Mul (D3Const p (I 1)) (D3Plane hD2 hu hv)) (D3Const p (I 3))
  have hJ : (pinholeProject D b I c p).jacPoint =
      some ⟨I 0 * (D.jacobian c (p.1 * p.2.2⁻¹, p.2.1 * p.2.2⁻¹)).a * p.2.2⁻¹,
        I 0 * (D.jacobian c (p.1 * p.2.2⁻¹, p.2.1 * p.2.2⁻¹)).b * p.2.2⁻¹,
        -I 0 * (p.1 * (D.jacobian c (p.1 * p.2.2⁻¹, p.2.1 * p.2.2⁻¹)).a +
          p.2.1 * (D.jacobian c (p.1 * p.2.2⁻¹, p.2.1 * p.2.2⁻¹)).b) * (p.2.2⁻¹ * p.2.2⁻¹),
        I 1 * (D.jacobian c (p.1 * p.2.2⁻¹, p.2.1 * p.2.2⁻¹)).c * p.2.2⁻¹,
        I 1 * (D.jacobian c (p.1 * p.2.2⁻¹, p.2.1 * p.2.2⁻¹)).d * p.2.2⁻¹,
        -I 1 * (p.1 * (D.jacobian c (p.1 * p.2.2⁻¹, p.2.1 * p.2.2⁻¹)).c +
          p.2.1 * (D.jacobian c (p.1 * p.2.2⁻¹, p.2.1 * p.2.2⁻¹)).d) * (p.2.2⁻¹ * p.2.2⁻¹)⟩ := by
    unfold pinholeProject
    simp only
    rw [if_neg hz, one_div]
  refine ⟨_, hJ, fun q => (I 0 * (D.distort c (q.1 * q.2.2⁻¹, q.2.1 * q.2.2⁻¹)).1 + I 2,
    I 1 * (D.distort c (q.1 * q.2.2⁻¹, q.2.1 * q.2.2⁻¹)).2 + I 3), ?_, ?_, ?_⟩
  · have ev : ∀ᶠ q : V3 in nhds p, q.2.2 ≠ 0 := (isOpen_ne_fun (by fun_prop) continuous_const).mem_nhds hz
    filter_upwards [ev] with q hq
    rw [pinhole_keypoint D b I c hq, div_eq_mul_inv, div_eq_mul_inv]
  · refine e1.congr_fderiv (row3_ext ?_ ?_ ?_) <;> ring
  · refine e2.congr_fderiv (row3_ext ?_ ?_ ?_) <;> ring

/-- C50: the intrinsics Jacobian, for every point not in the camera plane, all intrinsics and every distortion. -/
theorem pinhole_intrinsicsJacobian (p : V3) (hz : p.2.2 ≠ 0) :
    ∃ J, (pinholeProject D b I c p).jacIntrinsics = some J ∧
      IsColumns (fun I => (pinholeProject D b I c p).keypoint) J I := by
  refine ⟨![((D.distort c (p.1 / p.2.2, p.2.1 / p.2.2)).1, 0), (0, (D.distort c (p.1 / p.2.2, p.2.1 / p.2.2)).2),
    (1, 0), (0, 1)], ?_, ?_⟩
  · unfold pinholeProject
    simp only
    rw [if_neg hz, mul_one_div, mul_one_div]
  · intro i
    refine ⟨fun s => (Function.update I i s 0 * (D.distort c (p.1 / p.2.2, p.2.1 / p.2.2)).1 + Function.update I i s 2,
      Function.update I i s 1 * (D.distort c (p.1 / p.2.2, p.2.1 / p.2.2)).2 + Function.update I i s 3), ?_, ?_⟩
    · exact Filter.Eventually.of_forall fun s => pinhole_keypoint D b _ c hz
    · have key : ∀ (a m x : ℝ) (f : ℝ → ℝ), (∀ s, f s = a + m * s) → HasDerivAt f m x := by
        intro a m x f hf
        have : f = fun s => a + m * s := funext hf
        rw [this]
        exact Verif.Distortion.hasDerivAt_affine _ _ _
      fin_cases i
      · constructor
        · refine key (I 2) _ _ _ fun s => ?_
          simp [Function.update_apply]
          ring
        · refine key (I 1 * (D.distort c (p.1 / p.2.2, p.2.1 / p.2.2)).2 + I 3) _ _ _ fun s => ?_
          simp [Function.update_apply]
      · constructor
        · refine key (I 0 * (D.distort c (p.1 / p.2.2, p.2.1 / p.2.2)).1 + I 2) _ _ _ fun s => ?_
          simp [Function.update_apply]
        · refine key (I 3) _ _ _ fun s => ?_
          simp [Function.update_apply]
          ring
      · constructor
        · refine key (I 0 * (D.distort c (p.1 / p.2.2, p.2.1 / p.2.2)).1) _ _ _ fun s => ?_
          simp [Function.update_apply]
        · refine key (I 1 * (D.distort c (p.1 / p.2.2, p.2.1 / p.2.2)).2 + I 3) _ _ _ fun s => ?_
          simp [Function.update_apply]
      · constructor
        · refine key (I 0 * (D.distort c (p.1 / p.2.2, p.2.1 / p.2.2)).1 + I 2) _ _ _ fun s => ?_
          simp [Function.update_apply]
        · refine key (I 1 * (D.distort c (p.1 / p.2.2, p.2.1 / p.2.2)).2) _ _ _ fun s => ?_
          simp [Function.update_apply]

/-- C50: the Jacobian with respect to the distortion coefficients. -/
theorem pinhole_distortionJacobian (p : V3) (hz : p.2.2 ≠ 0)
    (hD : IsParameterJacobian (fun c => D.distort c (p.1 / p.2.2, p.2.1 / p.2.2))
      (D.parameterJacobian c (p.1 / p.2.2, p.2.1 / p.2.2)) c) :
    ∃ J, (pinholeProject D b I c p).jacDistortion = some J ∧
      IsColumns (fun c => (pinholeProject D b I c p).keypoint) J c := by
  refine ⟨fun i => ((D.parameterJacobian c (p.1 / p.2.2, p.2.1 / p.2.2) i).1 * I 0,
    (D.parameterJacobian c (p.1 / p.2.2, p.2.1 / p.2.2) i).2 * I 1), ?_, ?_⟩
  · unfold pinholeProject
    simp only
    rw [if_neg hz, mul_one_div, mul_one_div]
  · intro i
    obtain ⟨h1, h2⟩ := hD i
    refine ⟨_, Filter.Eventually.of_forall fun s => pinhole_keypoint D b I _ hz, ?_, ?_⟩
    · exact ((h1.const_mul (I 0)).add_const (I 2)).congr_deriv (by ring)
    · exact ((h2.const_mul (I 1)).add_const (I 3)).congr_deriv (by ring)

end pinhole

/-- C49 without distortion, with nothing assumed. -/
theorem pinhole_null_inverse (b : Box) (I : Fin 4 → ℝ) (c : Fin 0 → ℝ) (hI : PinholeValid I) :
    (∀ k : V2, ∃ r, pinholeBackProject Verif.Distortion.null I c k = (some r, true) ∧ ∀ s : ℝ, 0 < s →
      (pinholeProject Verif.Distortion.null b I c (scale s r)).keypoint = some k) ∧
    ∀ (p : V3) (k : V2), p.2.2 ≠ 0 → (pinholeProject Verif.Distortion.null b I c p).keypoint = some k →
      pinholeBackProject Verif.Distortion.null I c k = (some (scale (1 / p.2.2) p), true) := by
  constructor
  · intro k
    have h := pinhole_project_backProject Verif.Distortion.null b I c hI k
      ((k.1 - I 2) / I 0, (k.2 - I 3) / I 1, 1) rfl
      (by
        intro q hq
        simp only [Verif.Distortion.null, Option.some.injEq] at hq ⊢
        exact hq.symm)
    exact ⟨_, rfl, h.2.2⟩
  · intro p k hz hk
    exact pinhole_backProject_project _ b I c hI p hz k hk rfl

/-- C49 with the fisheye distortion, where C54 applies. -/
theorem pinhole_fisheye_inverse (b : Box) (I : Fin 4 → ℝ) (c : Fin 1 → ℝ) (hI : PinholeValid I) (h1 : 0.5 ≤ c 0)
    (h2 : c 0 ≤ 1.5) (p : V3) (hz : 0 < p.2.2) (k : V2)
    (hk : (pinholeProject Verif.Distortion.fisheye b I c p).keypoint = some k)
    (hr : 1e-5 ≤ (p.1 / p.2.2) ^ 2 + (p.2.1 / p.2.2) ^ 2)
    (ha : Real.arctan (2 * Real.tan (c 0 / 2) * Real.sqrt ((p.1 / p.2.2) ^ 2 + (p.2.1 / p.2.2) ^ 2)) ≤ 89 * Real.pi / 180) :
    pinholeBackProject Verif.Distortion.fisheye I c k = (some (scale (1 / p.2.2) p), true) := by
  refine pinhole_backProject_project _ b I c hI p hz.ne' k hk ?_
  exact congrArg some (Verif.Distortion.fisheye_inverse_partial c h1 h2 _ (Or.inr hr) ha)

/-- C50 for the models whose Jacobians are right (C53). -/
theorem pinhole_radtan_jacobian (tol : ℝ) (b : Box) (I c : Fin 4 → ℝ) (p : V3) (hz : p.2.2 ≠ 0) :
    ∃ J, (pinholeProject (Verif.Distortion.radtan tol) b I c p).jacPoint = some J ∧
      IsPointJacobian (fun q => (pinholeProject (Verif.Distortion.radtan tol) b I c q).keypoint) J p :=
  pinhole_jacobian _ b I c p hz (Verif.Distortion.radtan_jacobian c _)

/-- The Jacobian with respect to the point, for a pinhole camera without distortion. -/
theorem pinhole_null_jacobian (b : Box) (I : Fin 4 → ℝ) (c : Fin 0 → ℝ) (p : V3) (hz : p.2.2 ≠ 0) :
    ∃ J, (pinholeProject Verif.Distortion.null b I c p).jacPoint = some J ∧
      IsPointJacobian (fun q => (pinholeProject Verif.Distortion.null b I c q).keypoint) J p :=
  pinhole_jacobian _ b I c p hz ⟨Verif.Distortion.hasFDerivAt_x _, Verif.Distortion.hasFDerivAt_y _⟩

/-! ## Unified projection (C52) -/

theorem norm3_sq (p : V3) : norm3 p * norm3 p = p.1 * p.1 + p.2.1 * p.2.1 + p.2.2 * p.2.2 :=
  Real.mul_self_sqrt (by nlinarith [mul_self_nonneg p.1, mul_self_nonneg p.2.1, mul_self_nonneg p.2.2])

theorem norm3_nonneg (p : V3) : 0 ≤ norm3 p := Real.sqrt_nonneg _

theorem norm3_scale {s : ℝ} (hs : 0 ≤ s) (p : V3) : norm3 (scale s p) = s * norm3 p := by
  unfold norm3 scale
  simp only
  rw [show s * p.1 * (s * p.1) + s * p.2.1 * (s * p.2.1) + s * p.2.2 * (s * p.2.2) =
    s * s * (p.1 * p.1 + p.2.1 * p.2.1 + p.2.2 * p.2.2) by ring, Real.sqrt_mul (mul_self_nonneg s),
    Real.sqrt_mul_self hs]

theorem norm3_eq {p : V3} {d : ℝ} (hd : 0 ≤ d) (h : d * d = p.1 * p.1 + p.2.1 * p.2.1 + p.2.2 * p.2.2) : norm3 p = d := by
  unfold norm3
  rw [← h, Real.sqrt_mul_self hd]

theorem fov_nonneg {xi : ℝ} (h : 0 ≤ xi) : 0 ≤ fovParameter xi := by
  unfold fovParameter
  split
  · exact h
  · positivity

/-- In the valid region the point is not the origin, the divisor is positive, and so is the other quantity under the
root of the back-projection. -/
theorem valid_facts {xi : ℝ} (hxi : 0 ≤ xi) {p : V3} (hv : p.2.2 > -(fovParameter xi * norm3 p)) :
    0 < norm3 p ∧ 0 < p.2.2 + xi * norm3 p ∧ 0 ≤ norm3 p + xi * p.2.2 := by
  have hd := norm3_nonneg p
  have hsq := norm3_sq p
  have hpos : 0 < norm3 p := by
    rcases hd.eq_or_lt with h | h
    · rw [← h, mul_zero, neg_zero] at hv
      rw [← h] at hsq
      nlinarith [mul_self_nonneg p.1, mul_self_nonneg p.2.1]
    · exact h
  have hz1 : -norm3 p ≤ p.2.2 := by
    nlinarith [mul_self_nonneg p.1, mul_self_nonneg p.2.1]
  unfold fovParameter at hv
  split at hv
  · rename_i h
    refine ⟨hpos, by linarith, by nlinarith⟩
  · rename_i h
    have h := not_le.1 h
    have hx : 0 < xi := by linarith
    have h1 : 1 / xi * norm3 p < xi * norm3 p := by
      refine mul_lt_mul_of_pos_right ?_ hpos
      rw [div_lt_iff₀ hx]
      nlinarith
    refine ⟨hpos, by linarith, ?_⟩
    have h2 : xi * (1 / xi * norm3 p) = norm3 p := by field_simp
    nlinarith

section unified

variable {n : Nat} (D : Model n) (b : Box) (I : Fin 5 → ℝ) (c : Fin n → ℝ)

theorem unified_keypoint_of {p : V3} (hv : p.2.2 > -(fovParameter (I 0) * norm3 p)) (hS : p.2.2 + I 0 * norm3 p ≠ 0) :
    (unifiedProject D b I c p).keypoint =
      some (I 1 * (D.distort c (p.1 / (p.2.2 + I 0 * norm3 p), p.2.1 / (p.2.2 + I 0 * norm3 p))).1 + I 3,
        I 2 * (D.distort c (p.1 / (p.2.2 + I 0 * norm3 p), p.2.1 / (p.2.2 + I 0 * norm3 p))).2 + I 4) := by
  unfold unifiedProject
  simp only
  rw [if_neg (not_not.2 hv), if_neg hS, mul_one_div, mul_one_div]

/-- The keypoint of a point in the field of view: the equation of the unified model. -/
theorem unified_keypoint (hxi : 0 ≤ I 0) {p : V3} (hv : p.2.2 > -(fovParameter (I 0) * norm3 p)) :
    (unifiedProject D b I c p).keypoint =
      some (I 1 * (D.distort c (p.1 / (p.2.2 + I 0 * norm3 p), p.2.1 / (p.2.2 + I 0 * norm3 p))).1 + I 3,
        I 2 * (D.distort c (p.1 / (p.2.2 + I 0 * norm3 p), p.2.1 / (p.2.2 + I 0 * norm3 p))).2 + I 4) := by
  obtain ⟨-, h2, -⟩ := valid_facts hxi hv
  unfold unifiedProject
  simp only
  rw [if_neg (not_not.2 hv), if_neg h2.ne', mul_one_div, mul_one_div]

/-- All points on a ray have the same keypoint, for the unified model. -/
theorem unified_scale (hxi : 0 ≤ I 0) {s : ℝ} (hs : 0 < s) (p : V3) :
    (unifiedProject D b I c (scale s p)).keypoint = (unifiedProject D b I c p).keypoint := by
  have hiff : (scale s p).2.2 > -(fovParameter (I 0) * norm3 (scale s p)) ↔ p.2.2 > -(fovParameter (I 0) * norm3 p) := by
    rw [norm3_scale hs.le]
    unfold scale
    simp only
    rw [show -(fovParameter (I 0) * (s * norm3 p)) = s * (-(fovParameter (I 0) * norm3 p)) by ring, gt_iff_lt, gt_iff_lt,
      mul_lt_mul_iff_right₀ hs]
  by_cases hv : p.2.2 > -(fovParameter (I 0) * norm3 p)
  · rw [unified_keypoint D b I c hxi hv, unified_keypoint D b I c hxi (hiff.2 hv), norm3_scale hs.le]
    unfold scale
    simp only
    rw [show s * p.2.2 + I 0 * (s * norm3 p) = s * (p.2.2 + I 0 * norm3 p) by ring, mul_div_mul_left _ _ hs.ne',
      mul_div_mul_left _ _ hs.ne']
  · have hv' := fun h => hv (hiff.1 h)
    unfold unifiedProject
    simp only
    rw [if_pos hv, if_pos hv']

/-- C52: whether the projection is valid, and the status. -/
theorem unified_status (hxi : 0 ≤ I 0) (p : V3) :
    ((unifiedProject D b I c p).status = .visible ↔
        p.2.2 > -(fovParameter (I 0) * norm3 p) ∧ 1e-10 < norm3 p ∧
          ∃ k, (unifiedProject D b I c p).keypoint = some k ∧ InImage b k) ∧
      ((unifiedProject D b I c p).status = .outside ↔
        p.2.2 > -(fovParameter (I 0) * norm3 p) ∧ 1e-10 < norm3 p ∧
          ∃ k, (unifiedProject D b I c p).keypoint = some k ∧ ¬ InImage b k) ∧
      ((unifiedProject D b I c p).status = .invalid ↔
        p.2.2 ≤ -(fovParameter (I 0) * norm3 p) ∨ norm3 p ≤ 1e-10) := by
  by_cases hv : p.2.2 > -(fovParameter (I 0) * norm3 p)
  · obtain ⟨h1, h2, -⟩ := valid_facts hxi hv
    have hs : ∃ k, (unifiedProject D b I c p).keypoint = some k ∧
        (unifiedProject D b I c p).status = unifiedEvaluate b k p := by
      unfold unifiedProject
      simp only
      rw [if_neg (not_not.2 hv), if_neg h2.ne']
      exact ⟨_, rfl, rfl⟩
    obtain ⟨k, hk, hs⟩ := hs
    have hd : p.1 * p.1 + p.2.1 * p.2.1 + p.2.2 * p.2.2 > minimumDepth * minimumDepth ↔ 1e-10 < norm3 p := by
      rw [← norm3_sq, gt_iff_lt]
      unfold minimumDepth
      constructor
      · intro h
        by_contra hn
        have hn := not_lt.1 hn
        have := mul_le_mul hn hn h1.le (by norm_num)
        linarith
      · intro h
        exact mul_lt_mul'' h h (by norm_num) (by norm_num)
    rw [hs, hk]
    unfold unifiedEvaluate
    simp only [visible_iff, Option.some.injEq, exists_eq_left', hd]
    have hv' := not_le.2 hv
    by_cases hd' : (1e-10 : ℝ) < norm3 p
    · have hd'' := not_le.2 hd'
      by_cases h3 : InImage b k <;> simp only [hd', h3, hv, hd'', hv'] <;> simp
    · have hd'' := not_lt.1 hd'
      simp only [hd', hv, hd'', hv'] <;> simp
  · have hs : (unifiedProject D b I c p).status = .invalid := by
      unfold unifiedProject
      simp only
      rw [if_pos hv]
    rw [hs]
    refine ⟨iff_of_false (by decide) (fun h => hv h.1), iff_of_false (by decide) (fun h => hv h.1),
      iff_of_true rfl (Or.inl (not_lt.1 hv))⟩

/-- C52: every point on the ray that back-projection returns projects to the keypoint, with a valid projection, if the
keypoint is reported as valid.  Missing: keypoints exactly on the boundary circle of a camera with `xi > 1`, which are
reported as valid but do not project (`unified_boundary_refuted`). -/
theorem unified_inverse_partial (hI : UnifiedValid I) (k : V2) (r : V3)
    (hr : unifiedBackProject D I c k = some (r, true))
    (hD : ∀ q, D.undistort c ((k.1 - I 3) / I 1, (k.2 - I 4) / I 2) = some q →
      D.distort c q = ((k.1 - I 3) / I 1, (k.2 - I 4) / I 2))
    (hb : 1 < I 0 → r.1 * r.1 + r.2.1 * r.2.1 ≠ 1 / (I 0 * I 0 - 1)) :
    ∀ s : ℝ, 0 < s → (unifiedProject D b I c (scale s r)).keypoint = some k ∧
      (scale s r).2.2 > -(fovParameter (I 0) * norm3 (scale s r)) := by
  obtain ⟨hxi, hfu, hfv, -, -⟩ := hI
  have hxi : 0 ≤ I 0 := hxi
  unfold unifiedBackProject at hr
  simp only at hr
  rw [Option.map_eq_some_iff] at hr
  obtain ⟨q, hq, hr⟩ := hr
  simp only [Prod.mk.injEq, decide_eq_true_eq] at hr
  obtain ⟨hr, hvalid⟩ := hr
  have hdist := hD q hq
  -- notation
  obtain ⟨rho, hrho⟩ : ∃ rho, rho = q.1 * q.1 + q.2 * q.2 := ⟨_, rfl⟩
  rw [← hrho] at hr hvalid
  have hrho0 : 0 ≤ rho := by
    rw [hrho]
    nlinarith [mul_self_nonneg q.1, mul_self_nonneg q.2]
  have hrb : 1 < I 0 → rho ≠ 1 / (I 0 * I 0 - 1) := by
    intro h
    have := hb h
    rw [← hr] at this
    rw [hrho]
    exact this
  have htmp : 0 < 1 + (1 - I 0 * I 0) * rho ∧ 0 ≤ 1 + (1 - I 0 * I 0) * rho := by
    have : 0 < 1 + (1 - I 0 * I 0) * rho := by
      by_cases h1 : I 0 ≤ 1
      · have h2 : I 0 * I 0 ≤ 1 := by nlinarith
        have := mul_nonneg (sub_nonneg.2 h2) hrho0
        linarith
      · have h1' := not_le.1 h1
        have hle := hvalid.resolve_left h1
        have hlt := lt_of_le_of_ne hle (hrb h1')
        have hpos : 0 < I 0 * I 0 - 1 := by nlinarith
        rw [lt_div_iff₀ hpos] at hlt
        linarith
    exact ⟨this, this.le⟩
  obtain ⟨w, hw⟩ : ∃ w, w = Real.sqrt (1 + (1 - I 0 * I 0) * rho) := ⟨_, rfl⟩
  have hw0 : 0 < w := by
    rw [hw]
    exact Real.sqrt_pos.2 htmp.1
  have hw2 : w * w = 1 + (1 - I 0 * I 0) * rho := by
    rw [hw]
    exact Real.mul_self_sqrt htmp.2
  rw [max_eq_left htmp.2, ← hw] at hr
  have ht : 0 < I 0 + w := by linarith
  have hd : norm3 r = (rho + 1) / (I 0 + w) := by
    refine norm3_eq (by positivity) ?_
    rw [← hr]
    simp only
    rw [← hrho]
    field_simp
    linear_combination (-(rho + 1)) * hw2
  have hz : r.2.2 = 1 - I 0 * (rho + 1) / (I 0 + w) := by rw [← hr]
  have hone : r.2.2 + I 0 * norm3 r = 1 := by
    rw [hd, hz]
    ring
  have hv : r.2.2 > -(fovParameter (I 0) * norm3 r) := by
    unfold fovParameter
    split
    · linarith
    · rename_i h1
      have h1 := not_le.1 h1
      have hx0 : 0 < I 0 := by linarith
      have hzz : r.2.2 = 1 - I 0 * norm3 r := by linarith
      rw [gt_iff_lt, hzz, hd, ← sub_pos]
      have : 1 - I 0 * ((rho + 1) / (I 0 + w)) - -(1 / I 0 * ((rho + 1) / (I 0 + w))) = w / I 0 := by
        field_simp
        linear_combination (-1 : ℝ) * hw2
      rw [this]
      positivity
  intro s hs
  constructor
  · rw [unified_scale D b I c hxi hs, unified_keypoint D b I c hxi hv, hone, div_one, div_one]
    have e : (r.1, r.2.1) = q := by
      rw [← hr]
    rw [e, hdist]
    have e1 : I 1 * ((k.1 - I 3) / I 1) + I 3 = k.1 := by
      rw [mul_div_cancel₀ _ (ne_of_gt hfu)]
      ring
    have e2 : I 2 * ((k.2 - I 4) / I 2) + I 4 = k.2 := by
      rw [mul_div_cancel₀ _ (ne_of_gt hfv)]
      ring
    simp only [e1, e2]
  · rw [norm3_scale hs.le]
    unfold scale
    simp only
    nlinarith

/-- C52, the other direction: back-projecting the projection of a point with a valid projection is reported as valid and
gives the point up to a positive factor. -/
theorem unified_backProject_project (hI : UnifiedValid I) (p : V3) (hv : p.2.2 > -(fovParameter (I 0) * norm3 p)) (k : V2)
    (hk : (unifiedProject D b I c p).keypoint = some k)
    (hD : ∀ q, D.undistort c (D.distort c q) = some q) :
    ∃ s : ℝ, 0 < s ∧ unifiedBackProject D I c k = some (scale s p, true) := by
  obtain ⟨hxi, hfu, hfv, -, -⟩ := hI
  have hxi : 0 ≤ I 0 := hxi
  obtain ⟨hd, hS, hT⟩ := valid_facts hxi hv
  have hsq := norm3_sq p
  rw [unified_keypoint D b I c hxi hv] at hk
  injection hk with hk
  refine ⟨1 / (p.2.2 + I 0 * norm3 p), by positivity, ?_⟩
  unfold unifiedBackProject
  rw [← hk]
  simp only [add_sub_cancel_right]
  rw [mul_div_cancel_left₀ _ (ne_of_gt hfu), mul_div_cancel_left₀ _ (ne_of_gt hfv), hD]
  simp only [Option.map_some, Option.some.injEq, Prod.mk.injEq, decide_eq_true_eq]
  obtain ⟨d, hd'⟩ : ∃ d, d = norm3 p := ⟨_, rfl⟩
  obtain ⟨S, hS'⟩ : ∃ S, S = p.2.2 + I 0 * norm3 p := ⟨_, rfl⟩
  obtain ⟨rho, hrho⟩ : ∃ rho, rho = p.1 / (p.2.2 + I 0 * norm3 p) * (p.1 / (p.2.2 + I 0 * norm3 p)) +
    p.2.1 / (p.2.2 + I 0 * norm3 p) * (p.2.1 / (p.2.2 + I 0 * norm3 p)) := ⟨_, rfl⟩
  rw [← hrho]
  rw [← hS'] at hrho hS ⊢
  rw [← hd'] at hsq hd hT hS'
  have hrho2 : rho * (S * S) = d * d - p.2.2 * p.2.2 := by
    rw [hrho]
    field_simp
    linarith
  have hroot : 1 + (1 - I 0 * I 0) * rho = ((d + I 0 * p.2.2) / S) * ((d + I 0 * p.2.2) / S) := by
    field_simp
    rw [hS'] at hrho2 ⊢
    linear_combination (1 - I 0 ^ 2) * hrho2
  have hq : 0 ≤ (d + I 0 * p.2.2) / S := div_nonneg hT hS.le
  have hmax : max (1 + (1 - I 0 * I 0) * rho) 0 = ((d + I 0 * p.2.2) / S) * ((d + I 0 * p.2.2) / S) := by
    rw [hroot, max_eq_left (mul_nonneg hq hq)]
  have hden : 0 < I 0 * S + (d + I 0 * p.2.2) := by
    rcases hxi.eq_or_lt with h | h
    · rw [← h]
      simp
      exact hd
    · have := mul_pos h hS
      linarith
  refine ⟨?_, ?_⟩
  · unfold scale
    rw [hmax, Real.sqrt_mul_self hq, Prod.mk.injEq, Prod.mk.injEq]
    refine ⟨by rw [one_div_mul_eq_div], by rw [one_div_mul_eq_div], ?_⟩
    have e1 : I 0 + (d + I 0 * p.2.2) / S = (I 0 * S + (d + I 0 * p.2.2)) / S := by
      field_simp
    have e2 : (rho + 1) * (S * S) = d * (I 0 * S + (d + I 0 * p.2.2)) := by
      rw [hS'] at hrho2 ⊢
      linear_combination hrho2
    have e3 : I 0 * (rho + 1) / (I 0 + (d + I 0 * p.2.2) / S) = I 0 * d / S := by
      rw [e1, div_div_eq_mul_div, div_eq_div_iff hden.ne' hS.ne']
      linear_combination I 0 * e2
    rw [e3, hS']
    have : p.2.2 + I 0 * d ≠ 0 := by
      rw [← hS']
      exact hS.ne'
    field_simp
    ring
  · unfold isUndistortedKeypointValid
    by_cases h1 : I 0 ≤ 1
    · exact Or.inl h1
    · right
      have h1 := not_le.1 h1
      have hpos : 0 < I 0 * I 0 - 1 := by nlinarith
      rw [le_div_iff₀ hpos]
      have := mul_nonneg hq hq
      rw [← hroot] at this
      linarith

/-- C67: the Jacobian with respect to the point, for every point with a valid projection. -/
theorem unified_jacobian (hxi : 0 ≤ I 0) (p : V3) (hv : p.2.2 > -(fovParameter (I 0) * norm3 p))
    (hD : IsJacobian (D.distort c)
      (D.jacobian c (p.1 / (p.2.2 + I 0 * norm3 p), p.2.1 / (p.2.2 + I 0 * norm3 p)))
      (p.1 / (p.2.2 + I 0 * norm3 p), p.2.1 / (p.2.2 + I 0 * norm3 p))) :
    ∃ J, (unifiedProject D b I c p).jacPoint = some J ∧
      IsPointJacobian (fun q => (unifiedProject D b I c q).keypoint) J p := by
  obtain ⟨hd, hS, -⟩ := valid_facts hxi hv
  have hsq := norm3_sq p
  have hx := deriv_x p
  have hy := deriv_y p
  have hz := deriv_z p
  have hnorm : HasFDerivAt norm3 (row3 (p.1 / norm3 p) (p.2.1 / norm3 p) (p.2.2 / norm3 p)) p := by
    have h2 := D3Add (D3Add (D3Mul hx hx) (D3Mul hy hy)) (D3Mul hz hz)
    have hne : p.1 * p.1 + p.2.1 * p.2.1 + p.2.2 * p.2.2 ≠ 0 := by
      rw [← hsq]
      positivity
    have h3 := D3Comp (g := Real.sqrt) (Real.hasDerivAt_sqrt hne) h2
    have hs : Real.sqrt (p.1 * p.1 + p.2.1 * p.2.1 + p.2.2 * p.2.2) = norm3 p := rfl
    refine h3.congr_fderiv (row3_ext ?_ ?_ ?_) <;> rw [hs] <;> field_simp <;> ring
  have hSd := D3Add hz (D3Mul (D3Const p (I 0)) hnorm)
  have hinv := D3Comp (g := fun t => t⁻¹) (hasDerivAt_inv hS.ne') hSd
  obtain ⟨r0, hr0⟩ : ∃ r0, r0 = 1 / (p.2.2 + I 0 * norm3 p) * (1 / (p.2.2 + I 0 * norm3 p)) / norm3 p := ⟨_, rfl⟩
  have hu : HasFDerivAt (fun q : V3 => q.1 * (q.2.2 + I 0 * norm3 q)⁻¹)
      (row3 (r0 * (norm3 p * p.2.2 + I 0 * (p.2.1 * p.2.1 + p.2.2 * p.2.2))) (-r0 * I 0 * p.1 * p.2.1)
        (p.1 * (r0 * (-I 0 * p.2.2 - norm3 p)))) p := by
    refine (D3Mul hx hinv).congr_fderiv (row3_ext ?_ ?_ ?_)
    · rw [hr0]
      field_simp
      linear_combination I 0 * hsq
    · rw [hr0]
      field_simp
      ring
    · rw [hr0]
      field_simp
      ring
  have hw : HasFDerivAt (fun q : V3 => q.2.1 * (q.2.2 + I 0 * norm3 q)⁻¹)
      (row3 (-r0 * I 0 * p.1 * p.2.1) (r0 * (norm3 p * p.2.2 + I 0 * (p.1 * p.1 + p.2.2 * p.2.2)))
        (p.2.1 * (r0 * (-I 0 * p.2.2 - norm3 p)))) p := by
    refine (D3Mul hy hinv).congr_fderiv (row3_ext ?_ ?_ ?_)
    · rw [hr0]
      field_simp
      ring
    · rw [hr0]
      field_simp
      linear_combination I 0 * hsq
    · rw [hr0]
      field_simp
      ring
  obtain ⟨hD1, hD2⟩ := hD
  rw [div_eq_mul_inv, div_eq_mul_inv] at hD1 hD2
  have e1 := D3Add (D3Mul (D3Const p (I 1)) (D3Plane hD1 hu hw)) (D3Const p (I 3))
  have e2 := D3Add (D3Mul (D3Const p (I 2)) (D3Plane hD2 hu hw)) (D3Const p (I 4))
  have hJ : ∃ J, (unifiedProject D b I c p).jacPoint = some J ∧
      J = ⟨I 1 * (r0 * (norm3 p * p.2.2 + I 0 * (p.2.1 * p.2.1 + p.2.2 * p.2.2)) *
          (D.jacobian c (p.1 * (p.2.2 + I 0 * norm3 p)⁻¹, p.2.1 * (p.2.2 + I 0 * norm3 p)⁻¹)).a +
            -r0 * I 0 * p.1 * p.2.1 *
              (D.jacobian c (p.1 * (p.2.2 + I 0 * norm3 p)⁻¹, p.2.1 * (p.2.2 + I 0 * norm3 p)⁻¹)).b),
        I 1 * (-r0 * I 0 * p.1 * p.2.1 *
          (D.jacobian c (p.1 * (p.2.2 + I 0 * norm3 p)⁻¹, p.2.1 * (p.2.2 + I 0 * norm3 p)⁻¹)).a +
            r0 * (norm3 p * p.2.2 + I 0 * (p.1 * p.1 + p.2.2 * p.2.2)) *
              (D.jacobian c (p.1 * (p.2.2 + I 0 * norm3 p)⁻¹, p.2.1 * (p.2.2 + I 0 * norm3 p)⁻¹)).b),
        I 1 * (p.1 * (r0 * (-I 0 * p.2.2 - norm3 p)) *
          (D.jacobian c (p.1 * (p.2.2 + I 0 * norm3 p)⁻¹, p.2.1 * (p.2.2 + I 0 * norm3 p)⁻¹)).a +
            p.2.1 * (r0 * (-I 0 * p.2.2 - norm3 p)) *
              (D.jacobian c (p.1 * (p.2.2 + I 0 * norm3 p)⁻¹, p.2.1 * (p.2.2 + I 0 * norm3 p)⁻¹)).b),
        I 2 * (r0 * (norm3 p * p.2.2 + I 0 * (p.2.1 * p.2.1 + p.2.2 * p.2.2)) *
          (D.jacobian c (p.1 * (p.2.2 + I 0 * norm3 p)⁻¹, p.2.1 * (p.2.2 + I 0 * norm3 p)⁻¹)).c +
            -r0 * I 0 * p.1 * p.2.1 *
              (D.jacobian c (p.1 * (p.2.2 + I 0 * norm3 p)⁻¹, p.2.1 * (p.2.2 + I 0 * norm3 p)⁻¹)).d),
        I 2 * (-r0 * I 0 * p.1 * p.2.1 *
          (D.jacobian c (p.1 * (p.2.2 + I 0 * norm3 p)⁻¹, p.2.1 * (p.2.2 + I 0 * norm3 p)⁻¹)).c +
            r0 * (norm3 p * p.2.2 + I 0 * (p.1 * p.1 + p.2.2 * p.2.2)) *
              (D.jacobian c (p.1 * (p.2.2 + I 0 * norm3 p)⁻¹, p.2.1 * (p.2.2 + I 0 * norm3 p)⁻¹)).d),
        I 2 * (p.1 * (r0 * (-I 0 * p.2.2 - norm3 p)) *
          (D.jacobian c (p.1 * (p.2.2 + I 0 * norm3 p)⁻¹, p.2.1 * (p.2.2 + I 0 * norm3 p)⁻¹)).c +
            p.2.1 * (r0 * (-I 0 * p.2.2 - norm3 p)) *
              (D.jacobian c (p.1 * (p.2.2 + I 0 * norm3 p)⁻¹, p.2.1 * (p.2.2 + I 0 * norm3 p)⁻¹)).d)⟩ := by
    unfold unifiedProject
    simp only
    rw [if_neg (not_not.2 hv), if_neg hS.ne', ← hr0, one_div]
    exact ⟨_, rfl, rfl⟩
  obtain ⟨J, hJ, rfl⟩ := hJ
  refine ⟨_, hJ, fun q => (I 1 * (D.distort c (q.1 * (q.2.2 + I 0 * norm3 q)⁻¹, q.2.1 * (q.2.2 + I 0 * norm3 q)⁻¹)).1 + I 3,
    I 2 * (D.distort c (q.1 * (q.2.2 + I 0 * norm3 q)⁻¹, q.2.1 * (q.2.2 + I 0 * norm3 q)⁻¹)).2 + I 4), ?_, ?_, ?_⟩
  · have hc : Continuous norm3 := by
      unfold norm3
      fun_prop
    have ev : ∀ᶠ q : V3 in nhds p, q.2.2 > -(fovParameter (I 0) * norm3 q) :=
      (isOpen_lt (by fun_prop) (by fun_prop)).mem_nhds hv
    filter_upwards [ev] with q hq
    rw [unified_keypoint D b I c hxi hq, div_eq_mul_inv, div_eq_mul_inv]
  · refine e1.congr_fderiv (row3_ext ?_ ?_ ?_) <;> ring
  · refine e2.congr_fderiv (row3_ext ?_ ?_ ?_) <;> ring

theorem fov_continuousAt (xi : ℝ) : ContinuousAt fovParameter xi := by
  rcases lt_trichotomy xi 1 with h1 | h1 | h1
  · refine continuousAt_id.congr ?_
    filter_upwards [gt_mem_nhds h1] with t ht
    unfold fovParameter
    rw [if_pos ht.le, id]
  · have h : 0 < xi := by linarith
    have e : ∀ t : ℝ, 0 < t → fovParameter t = min t (1 / t) := by
      intro t ht
      unfold fovParameter
      split
      · rename_i h2
        rw [min_eq_left]
        rw [le_div_iff₀ ht]
        nlinarith
      · rename_i h2
        have h2 := not_le.1 h2
        rw [min_eq_right]
        rw [div_le_iff₀ ht]
        nlinarith
    have hc : ContinuousAt (fun t : ℝ => min t (1 / t)) xi :=
      continuousAt_id.min (continuousAt_const.div continuousAt_id h.ne')
    refine hc.congr ?_
    filter_upwards [lt_mem_nhds h] with t ht
    rw [e t ht]
  · have hc : ContinuousAt (fun t : ℝ => 1 / t) xi :=
      continuousAt_const.div continuousAt_id (by linarith : 0 < xi).ne'
    refine hc.congr ?_
    filter_upwards [lt_mem_nhds h1] with t ht
    unfold fovParameter
    rw [if_neg (not_le.2 ht)]

/-- C67: the Jacobian with respect to the intrinsics (including the mirror parameter). -/
theorem unified_intrinsicsJacobian (hxi : 0 ≤ I 0) (p : V3) (hv : p.2.2 > -(fovParameter (I 0) * norm3 p))
    (hD : IsJacobian (D.distort c)
      (D.jacobian c (p.1 / (p.2.2 + I 0 * norm3 p), p.2.1 / (p.2.2 + I 0 * norm3 p)))
      (p.1 / (p.2.2 + I 0 * norm3 p), p.2.1 / (p.2.2 + I 0 * norm3 p))) :
    ∃ J, (unifiedProject D b I c p).jacIntrinsics = some J ∧
      IsColumns (fun I => (unifiedProject D b I c p).keypoint) J I := by
  obtain ⟨hd, hS, -⟩ := valid_facts hxi hv
  obtain ⟨q, hq⟩ : ∃ q, q = (p.1 / (p.2.2 + I 0 * norm3 p), p.2.1 / (p.2.2 + I 0 * norm3 p)) := ⟨_, rfl⟩
  rw [← hq] at hD
  obtain ⟨jx, hjx⟩ : ∃ jx : V2, jx = (-p.1 * (1 / (p.2.2 + I 0 * norm3 p)) * norm3 p * (1 / (p.2.2 + I 0 * norm3 p)),
    -p.2.1 * (1 / (p.2.2 + I 0 * norm3 p)) * norm3 p * (1 / (p.2.2 + I 0 * norm3 p))) := ⟨_, rfl⟩
  refine ⟨![((D.jacobian c q).a * I 1 * jx.1 + (D.jacobian c q).b * I 1 * jx.2,
      (D.jacobian c q).c * I 2 * jx.1 + (D.jacobian c q).d * I 2 * jx.2),
      ((D.distort c q).1, 0), (0, (D.distort c q).2), (1, 0), (0, 1)], ?_, ?_⟩
  · unfold unifiedProject
    simp only
    rw [if_neg (not_not.2 hv), if_neg hS.ne', mul_one_div p.1, mul_one_div p.2.1, ← hq, hjx]
  · have key : ∀ (a m x : ℝ) (f : ℝ → ℝ), (∀ s, f s = a + m * s) → HasDerivAt f m x := by
      intro a m x f hf
      have : f = fun s => a + m * s := funext hf
      rw [this]
      exact Verif.Distortion.hasDerivAt_affine _ _ _
    -- the columns of the affine part
    have aff : ∀ i : Fin 5, i ≠ 0 → ∀ s, (unifiedProject D b (Function.update I i s) c p).keypoint =
        some (Function.update I i s 1 * (D.distort c q).1 + Function.update I i s 3,
          Function.update I i s 2 * (D.distort c q).2 + Function.update I i s 4) := by
      intro i hi s
      have h0 : Function.update I i s 0 = I 0 := Function.update_of_ne (Ne.symm hi) _ _
      rw [unified_keypoint D b _ c (by rw [h0]; exact hxi) (by rw [h0]; exact hv), h0, ← hq]
    intro i
    by_cases hi : i = 0
    · subst hi
      refine ⟨fun s => (I 1 * (D.distort c (p.1 * (p.2.2 + s * norm3 p)⁻¹, p.2.1 * (p.2.2 + s * norm3 p)⁻¹)).1 + I 3,
        I 2 * (D.distort c (p.1 * (p.2.2 + s * norm3 p)⁻¹, p.2.1 * (p.2.2 + s * norm3 p)⁻¹)).2 + I 4), ?_, ?_⟩
      · have hc : ContinuousAt (fun s => -(fovParameter s * norm3 p)) (I 0) :=
          ((fov_continuousAt _).mul continuousAt_const).neg
        have ev1 : ∀ᶠ s in nhds (I 0), -(fovParameter s * norm3 p) < p.2.2 := hc.eventually_lt continuousAt_const hv
        have hc2 : ContinuousAt (fun s => p.2.2 + s * norm3 p) (I 0) := by fun_prop
        have ev2 : ∀ᶠ s in nhds (I 0), 0 < p.2.2 + s * norm3 p := continuousAt_const.eventually_lt hc2 hS
        filter_upwards [ev1, ev2] with s h1 h2
        have h0 : Function.update I 0 s 0 = s := Function.update_self _ _ _
        rw [unified_keypoint_of D b _ c (by rw [h0]; exact h1) (by rw [h0]; exact h2.ne'), h0, div_eq_mul_inv, div_eq_mul_inv]
        rfl
      · have hS1 : HasDerivAt (fun s : ℝ => p.2.2 + s * norm3 p) (norm3 p) (I 0) := by
          simpa using ((hasDerivAt_id (I 0)).mul_const (norm3 p)).const_add p.2.2
        have hinv := hS1.inv hS.ne'
        have hu : HasDerivAt (fun s : ℝ => p.1 * (p.2.2 + s * norm3 p)⁻¹) jx.1 (I 0) := by
          refine (hinv.const_mul p.1).congr_deriv ?_
          rw [hjx]
          field_simp
        have hw : HasDerivAt (fun s : ℝ => p.2.1 * (p.2.2 + s * norm3 p)⁻¹) jx.2 (I 0) := by
          refine (hinv.const_mul p.2.1).congr_deriv ?_
          rw [hjx]
          field_simp
        obtain ⟨hD1, hD2⟩ := hD
        rw [hq, div_eq_mul_inv, div_eq_mul_inv] at hD1 hD2
        have c1 := hD1.comp_hasDerivAt (I 0) (hu.prodMk hw)
        have c2 := hD2.comp_hasDerivAt (I 0) (hu.prodMk hw)
        have q' : q = (p.1 * (p.2.2 + I 0 * norm3 p)⁻¹, p.2.1 * (p.2.2 + I 0 * norm3 p)⁻¹) := by
          rw [hq, div_eq_mul_inv, div_eq_mul_inv]
        constructor
        · refine ((c1.const_mul (I 1)).add_const (I 3)).congr_deriv ?_
          rw [q']
          simp [row]
          ring
        · refine ((c2.const_mul (I 2)).add_const (I 4)).congr_deriv ?_
          rw [q']
          simp [row]
          ring
    · refine ⟨fun s => (Function.update I i s 1 * (D.distort c q).1 + Function.update I i s 3,
        Function.update I i s 2 * (D.distort c q).2 + Function.update I i s 4),
        Filter.Eventually.of_forall fun s => aff i hi s, ?_⟩
      fin_cases i
      · exact absurd rfl hi
      · constructor
        · refine key (I 3) _ _ _ fun s => ?_
          simp [Function.update_apply]
          ring
        · refine key (I 2 * (D.distort c q).2 + I 4) _ _ _ fun s => ?_
          simp [Function.update_apply]
      · constructor
        · refine key (I 1 * (D.distort c q).1 + I 3) _ _ _ fun s => ?_
          simp [Function.update_apply]
        · refine key (I 4) _ _ _ fun s => ?_
          simp [Function.update_apply]
          ring
      · constructor
        · refine key (I 1 * (D.distort c q).1) _ _ _ fun s => ?_
          simp [Function.update_apply]
        · refine key (I 2 * (D.distort c q).2 + I 4) _ _ _ fun s => ?_
          simp [Function.update_apply]
      · constructor
        · refine key (I 1 * (D.distort c q).1 + I 3) _ _ _ fun s => ?_
          simp [Function.update_apply]
        · refine key (I 2 * (D.distort c q).2) _ _ _ fun s => ?_
          simp [Function.update_apply]

/-- C67: the Jacobian with respect to the distortion coefficients. -/
theorem unified_distortionJacobian (hxi : 0 ≤ I 0) (p : V3) (hv : p.2.2 > -(fovParameter (I 0) * norm3 p))
    (hD : IsParameterJacobian
      (fun c => D.distort c (p.1 / (p.2.2 + I 0 * norm3 p), p.2.1 / (p.2.2 + I 0 * norm3 p)))
      (D.parameterJacobian c (p.1 / (p.2.2 + I 0 * norm3 p), p.2.1 / (p.2.2 + I 0 * norm3 p))) c) :
    ∃ J, (unifiedProject D b I c p).jacDistortion = some J ∧
      IsColumns (fun c => (unifiedProject D b I c p).keypoint) J c := by
  obtain ⟨hd, hS, -⟩ := valid_facts hxi hv
  refine ⟨fun i => ((D.parameterJacobian c (p.1 / (p.2.2 + I 0 * norm3 p), p.2.1 / (p.2.2 + I 0 * norm3 p)) i).1 * I 1,
    (D.parameterJacobian c (p.1 / (p.2.2 + I 0 * norm3 p), p.2.1 / (p.2.2 + I 0 * norm3 p)) i).2 * I 2), ?_, ?_⟩
  · unfold unifiedProject
    simp only
    rw [if_neg (not_not.2 hv), if_neg hS.ne', mul_one_div, mul_one_div]
  · intro i
    obtain ⟨h1, h2⟩ := hD i
    refine ⟨_, Filter.Eventually.of_forall fun s => unified_keypoint D b I _ hxi hv, ?_, ?_⟩
    · exact ((h1.const_mul (I 1)).add_const (I 3)).congr_deriv (by ring)
    · exact ((h2.const_mul (I 2)).add_const (I 4)).congr_deriv (by ring)

end unified

/-- C67 for the radial-tangential model, whose Jacobians are right (C53): all three Jacobians, at every point with a valid
projection. -/
theorem unified_radtan_jacobians (tol : ℝ) (b : Box) (I : Fin 5 → ℝ) (c : Fin 4 → ℝ) (hxi : 0 ≤ I 0) (p : V3)
    (hv : p.2.2 > -(fovParameter (I 0) * norm3 p)) :
    (∃ J, (unifiedProject (Verif.Distortion.radtan tol) b I c p).jacPoint = some J ∧
      IsPointJacobian (fun q => (unifiedProject (Verif.Distortion.radtan tol) b I c q).keypoint) J p) ∧
    (∃ J, (unifiedProject (Verif.Distortion.radtan tol) b I c p).jacIntrinsics = some J ∧
      IsColumns (fun I => (unifiedProject (Verif.Distortion.radtan tol) b I c p).keypoint) J I) ∧
    (∃ J, (unifiedProject (Verif.Distortion.radtan tol) b I c p).jacDistortion = some J ∧
      IsColumns (fun c => (unifiedProject (Verif.Distortion.radtan tol) b I c p).keypoint) J c) :=
  ⟨unified_jacobian _ b I c hxi p hv (Verif.Distortion.radtan_jacobian c _),
    unified_intrinsicsJacobian _ b I c hxi p hv (Verif.Distortion.radtan_jacobian c _),
    unified_distortionJacobian _ b I c hxi p hv (Verif.Distortion.radtan_parameterJacobian c _)⟩

/-- C67 without distortion. -/
theorem unified_null_jacobians (b : Box) (I : Fin 5 → ℝ) (c : Fin 0 → ℝ) (hxi : 0 ≤ I 0) (p : V3)
    (hv : p.2.2 > -(fovParameter (I 0) * norm3 p)) :
    (∃ J, (unifiedProject Verif.Distortion.null b I c p).jacPoint = some J ∧
      IsPointJacobian (fun q => (unifiedProject Verif.Distortion.null b I c q).keypoint) J p) ∧
    (∃ J, (unifiedProject Verif.Distortion.null b I c p).jacIntrinsics = some J ∧
      IsColumns (fun I => (unifiedProject Verif.Distortion.null b I c p).keypoint) J I) :=
  ⟨unified_jacobian _ b I c hxi p hv ⟨Verif.Distortion.hasFDerivAt_x _, Verif.Distortion.hasFDerivAt_y _⟩,
    unified_intrinsicsJacobian _ b I c hxi p hv ⟨Verif.Distortion.hasFDerivAt_x _, Verif.Distortion.hasFDerivAt_y _⟩⟩

/-- Such a camera and such a point: without a mirror, in front of the camera. -/
example : (0 : ℝ) ≤ (![0, 400, 300, 320, 240] : Fin 5 → ℝ) 0 ∧ (1 : ℝ) > -(fovParameter 0 * norm3 (1, 2, 1)) := by
  simp [fovParameter]

/-- On the boundary circle back-projection reports success, but no point on the ray projects. -/
theorem unified_boundary_refuted : ∃ (I : Fin 5 → ℝ) (k : V2) (r : V3), UnifiedValid I ∧
    unifiedBackProject Verif.Distortion.null I Fin.elim0 k = some (r, true) ∧
    ∀ (b : Box) (s : ℝ), 0 < s → (unifiedProject Verif.Distortion.null b I Fin.elim0 (scale s r)).status = .invalid := by
  refine ⟨![5 / 4, 1, 1, 1, 1], (7 / 3, 1), (4 / 3, 0, -16 / 9), ?_, ?_, ?_⟩
  · unfold UnifiedValid
    simp
    norm_num
  · unfold unifiedBackProject Verif.Distortion.null isUndistortedKeypointValid
    simp
    norm_num
  · intro b s hs
    unfold unifiedProject
    simp only
    rw [if_pos]
    rw [norm3_scale hs.le, norm3_eq (d := 20 / 9) (by norm_num) (by norm_num)]
    unfold fovParameter scale
    norm_num
    linarith

/-! ## Homogeneous points (C51) -/

/-- The euclidean point that a homogeneous point represents. -/
noncomputable def represented (h : V4) : V3 := (h.1 / h.2.2.2, h.2.1 / h.2.2.2, h.2.2.1 / h.2.2.2)

/-- The homogeneous coordinates multiplied by a number. -/
def scale4 (t : ℝ) (h : V4) : V4 := (t * h.1, t * h.2.1, t * h.2.2.1, t * h.2.2.2)

theorem represented_scale {t : ℝ} (ht : t ≠ 0) (h : V4) : represented (scale4 t h) = represented h := by
  unfold represented scale4
  simp only
  rw [mul_div_mul_left _ _ ht, mul_div_mul_left _ _ ht, mul_div_mul_left _ _ ht]

theorem euclidean_eq {h : V4} (hw : h.2.2.2 ≠ 0) : euclidean h = scale |h.2.2.2| (represented h) := by
  unfold euclidean represented scale
  simp only
  split
  · rename_i hn
    rw [abs_of_neg hn, Prod.mk.injEq, Prod.mk.injEq]
    refine ⟨?_, ?_, ?_⟩ <;> field_simp
  · rename_i hn
    rw [abs_of_nonneg (not_lt.1 hn), Prod.mk.injEq, Prod.mk.injEq]
    refine ⟨?_, ?_, ?_⟩ <;> field_simp

/-- C51, keypoint: `project4` gives the keypoint of the point represented. -/
theorem pinhole_project4_keypoint {n : Nat} (D : Model n) (b : Box) (I : Fin 4 → ℝ) (c : Fin n → ℝ) (h : V4)
    (hw : h.2.2.2 ≠ 0) :
    (project4 (pinholeProject D b I c) h).2.1 = (pinholeProject D b I c (represented h)).keypoint := by
  unfold project4
  simp only
  rw [euclidean_eq hw, pinhole_scale D b I c _ (abs_ne_zero.2 hw)]

/-- A homogeneous point is projected like the point it represents, by the unified model. -/
theorem unified_project4_keypoint {n : Nat} (D : Model n) (b : Box) (I : Fin 5 → ℝ) (c : Fin n → ℝ) (hxi : 0 ≤ I 0) (h : V4)
    (hw : h.2.2.2 ≠ 0) :
    (project4 (unifiedProject D b I c) h).2.1 = (unifiedProject D b I c (represented h)).keypoint := by
  unfold project4
  simp only
  rw [euclidean_eq hw, unified_scale D b I c hxi (abs_pos.2 hw)]

/-- C51, scale: the keypoint does not depend on the scale of the coordinates. -/
theorem project4_scale {n : Nat} (D : Model n) (b : Box) (I : Fin 4 → ℝ) (I5 : Fin 5 → ℝ) (hxi : 0 ≤ I5 0)
    (c : Fin n → ℝ) (h : V4) (hw : h.2.2.2 ≠ 0) (t : ℝ) (ht : t ≠ 0) :
    (project4 (pinholeProject D b I c) (scale4 t h)).2.1 = (project4 (pinholeProject D b I c) h).2.1 ∧
      (project4 (unifiedProject D b I5 c) (scale4 t h)).2.1 = (project4 (unifiedProject D b I5 c) h).2.1 := by
  have hw' : (scale4 t h).2.2.2 ≠ 0 := mul_ne_zero ht hw
  rw [pinhole_project4_keypoint D b I c _ hw', pinhole_project4_keypoint D b I c _ hw,
    unified_project4_keypoint D b I5 c hxi _ hw', unified_project4_keypoint D b I5 c hxi _ hw, represented_scale ht]
  exact ⟨rfl, rfl⟩

/-- C51, status: it is that of the point represented, unless the scale moves the depth across the minimum depth.
Missing: the latter, where it is false (`project4_status_refuted`). -/
theorem pinhole_project4_status_partial {n : Nat} (D : Model n) (b : Box) (I : Fin 4 → ℝ) (c : Fin n → ℝ) (h : V4)
    (hw : h.2.2.2 ≠ 0)
    (hd : 1e-10 < |h.2.2.2| * (represented h).2.2 ↔ 1e-10 < (represented h).2.2) :
    (project4 (pinholeProject D b I c) h).1 = (pinholeProject D b I c (represented h)).status := by
  unfold project4
  simp only
  rw [euclidean_eq hw]
  have ha := abs_pos.2 hw
  have hz : (scale |h.2.2.2| (represented h)).2.2 = |h.2.2.2| * (represented h).2.2 := rfl
  have hk := pinhole_scale D b I c _ ha.ne' (represented h)
  have s1 := pinhole_status D b I c (scale |h.2.2.2| (represented h))
  have s2 := pinhole_status D b I c (represented h)
  rw [hk, hz, hd] at s1
  have hneg : |h.2.2.2| * (represented h).2.2 < 0 ↔ (represented h).2.2 < 0 := by
    constructor
    · intro h0
      by_contra hn
      have := mul_nonneg ha.le (not_lt.1 hn)
      linarith
    · exact fun h0 => mul_neg_of_pos_of_neg ha h0
  rw [hneg] at s1
  have hinv : (0 ≤ |h.2.2.2| * (represented h).2.2 ∧ |h.2.2.2| * (represented h).2.2 ≤ 1e-10) ↔
      (0 ≤ (represented h).2.2 ∧ (represented h).2.2 ≤ 1e-10) := by
    constructor
    · rintro ⟨x, y⟩
      exact ⟨not_lt.1 fun hn => absurd (hneg.2 hn) (not_lt.2 x), not_lt.1 fun hn => absurd (hd.2 hn) (not_lt.2 y)⟩
    · rintro ⟨x, y⟩
      exact ⟨not_lt.1 fun hn => absurd (hneg.1 hn) (not_lt.2 x), not_lt.1 fun hn => absurd (hd.1 hn) (not_lt.2 y)⟩
  rw [hinv] at s1
  obtain ⟨a1, a2, a3, a4⟩ := s1
  obtain ⟨b1, b2, b3, b4⟩ := s2
  cases hs : (pinholeProject D b I c (represented h)).status with
  | visible => exact a1.2 (b1.1 hs)
  | outside => exact a2.2 (b2.1 hs)
  | behind => exact a3.2 (b3.1 hs)
  | invalid => exact a4.2 (b4.1 hs)
  | uninitialized =>
    exfalso
    have h1 : ¬ (represented h).2.2 < 0 := fun h0 => by simp [hs] at b3; exact absurd h0 (not_lt.2 b3)
    have h2 : ¬ (0 ≤ (represented h).2.2 ∧ (represented h).2.2 ≤ 1e-10) := fun h0 => by
      have := b4.2 h0
      rw [hs] at this
      cases this
    have h3 : 1e-10 < (represented h).2.2 := by
      by_contra hn
      exact h2 ⟨not_lt.1 h1, not_lt.1 hn⟩
    have hne : (represented h).2.2 ≠ 0 := ne_of_gt (lt_trans (by norm_num) h3)
    have hkp := pinhole_keypoint D b I c hne
    by_cases hin : InImage b (I 0 * (D.distort c ((represented h).1 / (represented h).2.2,
        (represented h).2.1 / (represented h).2.2)).1 + I 2,
        I 1 * (D.distort c ((represented h).1 / (represented h).2.2, (represented h).2.1 / (represented h).2.2)).2 + I 3)
    · have := b1.2 ⟨h3, _, hkp, hin⟩
      rw [hs] at this
      cases this
    · have := b2.2 ⟨h3, _, hkp, hin⟩
      rw [hs] at this
      cases this

/-- The status depends on the scale of the coordinates: the same visible point is reported as invalid. -/
theorem project4_status_refuted : ∃ (b : Box) (I : Fin 4 → ℝ) (h : V4), PinholeValid I ∧ h.2.2.2 ≠ 0 ∧
    (project4 (pinholeProject Verif.Distortion.null b I Fin.elim0) h).1 = .visible ∧
    (project4 (pinholeProject Verif.Distortion.null b I Fin.elim0) (scale4 1e-11 h)).1 = .invalid := by
  refine ⟨⟨10, 10⟩, ![1, 1, 5, 5], (0, 0, 1, 1), ?_, by norm_num, ?_, ?_⟩
  · unfold PinholeValid
    simp
  · unfold project4 euclidean pinholeProject pinholeEvaluate isKeypointVisible minimumDepth Verif.Distortion.null
    simp
    norm_num
  · unfold project4
    simp only
    rw [(pinhole_status _ _ _ _ _).2.2.2]
    unfold euclidean scale4
    norm_num

/-- The chain rule for the homogeneous coordinates. -/
theorem homogeneous_of_point {F : V3 → Option V2} {G : V4 → Option V2} {J : J23} {h : V4} {e : ℝ}
    (hJ : IsPointJacobian F J (e * h.1, e * h.2.1, e * h.2.2.1))
    (hG : ∀ᶠ q : V4 in nhds h, G q = F (e * q.1, e * q.2.1, e * q.2.2.1)) :
    IsHomogeneousJacobian G ⟨e * J.a, e * J.b, e * J.c, 0, e * J.d, e * J.e, e * J.f, 0⟩ h := by
  obtain ⟨f, hf, h1, h2⟩ := hJ
  let L : V4 → V3 := fun q => (e * q.1, e * q.2.1, e * q.2.2.1)
  have hLc : Continuous L := by
    show Continuous fun q : V4 => (e * q.1, e * q.2.1, e * q.2.2.1)
    fun_prop
  let L' : V4 →L[ℝ] V3 := (row4 e 0 0 0).prod ((row4 0 e 0 0).prod (row4 0 0 e 0))
  have hL' : ∀ q, L' q = L q := by
    intro q
    show ((row4 e 0 0 0) q, (row4 0 e 0 0) q, (row4 0 0 e 0) q) = (e * q.1, e * q.2.1, e * q.2.2.1)
    simp only [row4_apply]
    simp
  have hLd : HasFDerivAt L L' h := by
    have : L = fun q => L' q := by
      funext q
      exact (hL' q).symm
    rw [this]
    exact L'.hasFDerivAt
  refine ⟨fun q => f (L q), ?_, ?_, ?_⟩
  · filter_upwards [hG, hLc.continuousAt.eventually hf] with q hq hq'
    rw [hq]
    exact hq'
  · have := HasFDerivAt.comp (f := L) h h1 hLd
    refine this.congr_fderiv ?_
    apply ContinuousLinearMap.ext
    intro v
    rw [ContinuousLinearMap.comp_apply, hL', row3_apply, row4_apply]
    simp only [L]
    ring
  · have := HasFDerivAt.comp (f := L) h h2 hLd
    refine this.congr_fderiv ?_
    apply ContinuousLinearMap.ext
    intro v
    rw [ContinuousLinearMap.comp_apply, hL', row3_apply, row4_apply]
    simp only [L]
    ring

/-- The derivative is unique. -/
theorem homogeneous_unique {G : V4 → Option V2} {J K : J24} {h : V4} (hJ : IsHomogeneousJacobian G J h)
    (hK : IsHomogeneousJacobian G K h) : J = K := by
  obtain ⟨f, hf, f1, f2⟩ := hJ
  obtain ⟨g, hg, g1, g2⟩ := hK
  have he : ∀ᶠ q in nhds h, f q = g q := by
    filter_upwards [hf, hg] with q a b
    rw [a] at b
    injection b
  have e1 : (fun q => (f q).1) =ᶠ[nhds h] fun q => (g q).1 := by
    filter_upwards [he] with q hq
    rw [hq]
  have e2 : (fun q => (f q).2) =ᶠ[nhds h] fun q => (g q).2 := by
    filter_upwards [he] with q hq
    rw [hq]
  obtain ⟨a1, a2, a3, a4⟩ := row4_inj (f1.unique (g1.congr_of_eventuallyEq e1))
  obtain ⟨b1, b2, b3, b4⟩ := row4_inj (f2.unique (g2.congr_of_eventuallyEq e2))
  cases J
  cases K
  simp_all

/-- What `project4` returns for the pinhole camera does not depend on the sign of the point. -/
theorem pinhole_project4_head {n : Nat} (D : Model n) (b : Box) (I : Fin 4 → ℝ) (c : Fin n → ℝ) (e : ℝ) (he : e ≠ 0) (h : V4) :
    (project4 (pinholeProject D b I c) h).2.1 = (pinholeProject D b I c (e * h.1, e * h.2.1, e * h.2.2.1)).keypoint := by
  have h1 := pinhole_scale D b I c e he (h.1, h.2.1, h.2.2.1)
  have h2 := pinhole_scale D b I c (-1) (by norm_num) (h.1, h.2.1, h.2.2.1)
  unfold scale at h1 h2
  simp only at h1 h2
  rw [h1]
  unfold project4 euclidean
  simp only
  split
  · rw [← h2]
    simp only [neg_one_mul]
  · rfl

/-- C51, Jacobian of the pinhole camera: it is the derivative if the last coordinate is not negative.  Missing: a
negative one, where what is returned is minus the derivative (`pinhole_project4_negative`). -/
theorem pinhole_project4_jacobian_partial {n : Nat} (D : Model n) (b : Box) (I : Fin 4 → ℝ) (c : Fin n → ℝ) (h : V4)
    (hw : 0 ≤ h.2.2.2) (hz : h.2.2.1 ≠ 0)
    (hD : IsJacobian (D.distort c) (D.jacobian c (h.1 / h.2.2.1, h.2.1 / h.2.2.1)) (h.1 / h.2.2.1, h.2.1 / h.2.2.1)) :
    ∃ J, (project4 (pinholeProject D b I c) h).2.2 = some J ∧
      IsHomogeneousJacobian (fun q => (project4 (pinholeProject D b I c) q).2.1) J h := by
  obtain ⟨J, hJ, hder⟩ := pinhole_jacobian D b I c (h.1, h.2.1, h.2.2.1) hz hD
  refine ⟨⟨J.a, J.b, J.c, 0, J.d, J.e, J.f, 0⟩, ?_, ?_⟩
  · unfold project4 euclidean
    simp only
    rw [if_neg (not_lt.2 hw), hJ]
    rfl
  · have := homogeneous_of_point (G := fun q => (project4 (pinholeProject D b I c) q).2.1) (e := 1) (h := h)
      (by simpa only [one_mul] using hder)
      (Filter.Eventually.of_forall fun q => pinhole_project4_head D b I c 1 one_ne_zero q)
    simpa only [one_mul] using this

/-- With a negative last coordinate the Jacobian returned is minus the derivative. -/
theorem pinhole_project4_negative {n : Nat} (D : Model n) (b : Box) (I : Fin 4 → ℝ) (c : Fin n → ℝ) (h : V4)
    (hw : h.2.2.2 < 0) (hz : h.2.2.1 ≠ 0)
    (hD : IsJacobian (D.distort c) (D.jacobian c (h.1 / h.2.2.1, h.2.1 / h.2.2.1)) (h.1 / h.2.2.1, h.2.1 / h.2.2.1)) :
    ∃ J, (project4 (pinholeProject D b I c) h).2.2 = some J ∧
      IsHomogeneousJacobian (fun q => (project4 (pinholeProject D b I c) q).2.1)
        ⟨-J.a, -J.b, -J.c, -J.d, -J.e, -J.f, -J.g, -J.h⟩ h := by
  obtain ⟨J, hJ, hder⟩ := pinhole_jacobian D b I c (-h.1, -h.2.1, -h.2.2.1) (neg_ne_zero.2 hz)
    (by simp only [neg_div_neg_eq]; exact hD)
  refine ⟨⟨J.a, J.b, J.c, 0, J.d, J.e, J.f, 0⟩, ?_, ?_⟩
  · unfold project4 euclidean
    simp only
    rw [if_pos hw, hJ]
    rfl
  · have := homogeneous_of_point (G := fun q => (project4 (pinholeProject D b I c) q).2.1) (e := -1) (h := h)
      (by simpa only [neg_one_mul] using hder)
      (Filter.Eventually.of_forall fun q => pinhole_project4_head D b I c (-1) (by norm_num) q)
    simpa only [neg_one_mul, neg_zero] using this

/-- So it is never the derivative, as the Jacobian of an undistorted camera is not zero. -/
theorem project4_jacobian_refuted (b : Box) (I : Fin 4 → ℝ) (hI : PinholeValid I) (h : V4) (hw : h.2.2.2 < 0)
    (hz : h.2.2.1 ≠ 0) (J : J24)
    (hJ : (project4 (pinholeProject Verif.Distortion.null b I Fin.elim0) h).2.2 = some J) :
    ¬ IsHomogeneousJacobian (fun q => (project4 (pinholeProject Verif.Distortion.null b I Fin.elim0) q).2.1) J h := by
  intro hder
  obtain ⟨K, hK, hneg⟩ := pinhole_project4_negative Verif.Distortion.null b I Fin.elim0 h hw hz
    ⟨Verif.Distortion.hasFDerivAt_x _, Verif.Distortion.hasFDerivAt_y _⟩
  rw [hJ] at hK
  injection hK with hK
  subst hK
  have ha := congrArg J24.a (homogeneous_unique hder hneg)
  simp only at ha
  have h0 : J.a = 0 := by linarith
  unfold project4 euclidean pinholeProject at hJ
  simp only [if_pos hw, neg_eq_zero, if_neg hz, Option.map_some, Option.some.injEq] at hJ
  rw [← hJ] at h0
  simp only [Verif.Distortion.null, mul_one] at h0
  have := mul_ne_zero hI.1.ne' (one_div_ne_zero (neg_ne_zero.2 hz))
  exact this h0

/-- C51, Jacobian of the unified camera, for a positive last coordinate. -/
theorem unified_project4_jacobian_partial {n : Nat} (D : Model n) (b : Box) (I : Fin 5 → ℝ) (c : Fin n → ℝ) (hxi : 0 ≤ I 0)
    (h : V4) (hw : 0 < h.2.2.2) (hv : h.2.2.1 > -(fovParameter (I 0) * norm3 (h.1, h.2.1, h.2.2.1)))
    (hD : ∀ q, IsJacobian (D.distort c) (D.jacobian c q) q) :
    ∃ J, (project4 (unifiedProject D b I c) h).2.2 = some J ∧
      IsHomogeneousJacobian (fun q => (project4 (unifiedProject D b I c) q).2.1) J h := by
  obtain ⟨J, hJ, hder⟩ := unified_jacobian D b I c hxi (h.1, h.2.1, h.2.2.1) hv (hD _)
  refine ⟨⟨J.a, J.b, J.c, 0, J.d, J.e, J.f, 0⟩, ?_, ?_⟩
  · unfold project4 euclidean
    simp only
    rw [if_neg (not_lt.2 hw.le), hJ]
    rfl
  · have ev : ∀ᶠ q : V4 in nhds h, 0 < q.2.2.2 := (isOpen_lt continuous_const (by fun_prop)).mem_nhds hw
    have := homogeneous_of_point (G := fun q => (project4 (unifiedProject D b I c) q).2.1) (e := 1) (h := h)
      (by simpa only [one_mul] using hder)
      (by
        filter_upwards [ev] with q hq
        unfold project4 euclidean
        simp only
        rw [if_neg (not_lt.2 hq.le), one_mul, one_mul, one_mul])
    simpa only [one_mul] using this

/-- C51, points at infinity: back-projecting to homogeneous coordinates and projecting gives the keypoint back. -/
theorem backProject4_project4 {n : Nat} (D : Model n) (b : Box) (I : Fin 4 → ℝ) (c : Fin n → ℝ) (hI : PinholeValid I) (k : V2)
    (r : V3) (hr : (pinholeBackProject D I c k).1 = some r)
    (hD : ∀ q, D.undistort c ((k.1 - I 2) / I 0, (k.2 - I 3) / I 1) = some q →
      D.distort c q = ((k.1 - I 2) / I 0, (k.2 - I 3) / I 1)) :
    (project4 (pinholeProject D b I c) (backProject4 r)).2.1 = some k ∧ (backProject4 r).2.2.2 = 0 := by
  have h := (pinhole_project_backProject D b I c hI k r hr hD).2.2 1 one_pos
  refine ⟨?_, rfl⟩
  unfold project4 euclidean backProject4
  simp only [lt_irrefl, if_false]
  unfold scale at h
  simpa only [one_mul] using h

/-! ## Visibility and vectorised projection (C68) -/

/-- C68: with a margin, a keypoint is visible if the closed square of that half-width around it is: all corners, hence
every point of it. -/
theorem margin_iff (b : Box) (k : V2) (m : ℝ) (hm : 0 ≤ m) (hw : 2 * m < b.width) (hh : 2 * m < b.height) :
    isKeypointVisibleWithMargin b k m = some true ↔
      ∀ q : V2, |q.1 - k.1| ≤ m → |q.2 - k.2| ≤ m → isKeypointVisible b q := by
  unfold isKeypointVisibleWithMargin isKeypointVisible
  rw [if_neg (not_not.2 hw), if_neg (not_not.2 hh)]
  simp only [Option.some.injEq, decide_eq_true_eq]
  constructor
  · rintro ⟨h1, h2, h3, h4⟩ q hq1 hq2
    rw [abs_le] at hq1 hq2
    exact ⟨by linarith, by linarith, by linarith, by linarith⟩
  · intro h
    obtain ⟨h1, h2, -, -⟩ := h (k.1 - m, k.2 - m) (by simp [abs_of_nonneg hm]) (by simp [abs_of_nonneg hm])
    obtain ⟨-, -, h3, h4⟩ := h (k.1 + m, k.2 + m) (by simp [abs_of_nonneg hm]) (by simp [abs_of_nonneg hm])
    simp only at h1 h2 h3 h4
    exact ⟨by linarith, by linarith, by linarith, by linarith⟩

/-- A margin of zero is no margin. -/
theorem margin_zero (b : Box) (k : V2) (hw : 0 < b.width) (hh : 0 < b.height) :
    isKeypointVisibleWithMargin b k 0 = some (decide (isKeypointVisible b k)) := by
  unfold isKeypointVisibleWithMargin isKeypointVisible
  rw [if_neg (by rw [not_not]; simpa using hw), if_neg (by rw [not_not]; simpa using hh)]
  simp

/-- C68: a keypoint is unmasked iff it is in the image and the mask, if any, is not zero at the pixel containing it;
then that pixel is inside the mask. -/
theorem masked_iff (b : Box) (mask : Mask) (k : V2) :
    isMasked b mask k = false ↔
      InImage b k ∧ ∀ m, mask = some m → ∃ row col : Nat, row < b.height ∧ col < b.width ∧
        row ≤ k.2 ∧ k.2 < row + 1 ∧ col ≤ k.1 ∧ k.1 < col + 1 ∧ m row col ≠ 0 := by
  unfold isMasked InImage
  rw [Bool.or_eq_false_iff, decide_eq_false_iff_not]
  simp only [not_or, not_lt, ge_iff_le, not_le]
  constructor
  · rintro ⟨⟨h1, h2, h3, h4⟩, hm⟩
    refine ⟨⟨h1, h2, h3, h4⟩, ?_⟩
    rintro m rfl
    simp only [beq_eq_false_iff_ne] at hm
    exact ⟨⌊k.2⌋₊, ⌊k.1⌋₊, (Nat.floor_lt h3).2 h4, (Nat.floor_lt h1).2 h2, Nat.floor_le h3, Nat.lt_floor_add_one _,
      Nat.floor_le h1, Nat.lt_floor_add_one _, hm⟩
  · rintro ⟨⟨h1, h2, h3, h4⟩, hm⟩
    refine ⟨⟨h1, h2, h3, h4⟩, ?_⟩
    cases mask with
    | none => rfl
    | some m =>
      obtain ⟨row, col, -, -, r1, r2, c1, c2, hne⟩ := hm m rfl
      have e1 : ⌊k.2⌋₊ = row := (Nat.floor_eq_iff h3).2 ⟨r1, r2⟩
      have e2 : ⌊k.1⌋₊ = col := (Nat.floor_eq_iff h1).2 ⟨c1, c2⟩
      simp only [e1, e2, beq_eq_false_iff_ne]
      exact hne

/-- C68: the vectorised functions do column by column what the others do. -/
theorem project3Vectorized_map {m n : Nat} (project3 : V3 → Result m n) (ps : List V3) :
    project3Vectorized project3 ps ([], []) =
      (ps.map fun p => (project3 p).keypoint, ps.map fun p => (project3 p).status) := by
  have key : ∀ (ps : List V3) out, project3Vectorized project3 ps out =
      (out.1 ++ ps.map (fun p => (project3 p).keypoint), out.2 ++ ps.map fun p => (project3 p).status) := by
    intro ps
    induction ps with
    | nil =>
      intro out
      simp [project3Vectorized]
    | cons p ps ih =>
      intro out
      unfold project3Vectorized
      rw [ih]
      simp
  simpa using key ps ([], [])

/-- Back-projecting many keypoints is back-projecting each of them. -/
theorem backProject3Vectorized_map {α : Type} (backProject3 : V2 → α × Bool) (ks : List V2) :
    backProject3Vectorized backProject3 ks ([], []) =
      (ks.map fun k => (backProject3 k).1, ks.map fun k => (backProject3 k).2) := by
  have key : ∀ (ks : List V2) out, backProject3Vectorized backProject3 ks out =
      (out.1 ++ ks.map (fun k => (backProject3 k).1), out.2 ++ ks.map fun k => (backProject3 k).2) := by
    intro ks
    induction ks with
    | nil =>
      intro out
      simp [backProject3Vectorized]
    | cons p ks ih =>
      intro out
      unfold backProject3Vectorized
      rw [ih]
      simp
  simpa using key ks ([], [])

/-- C68: `isProjectable3` says whether the keypoint is visible, for the pinhole camera. -/
theorem isProjectable_iff {n : Nat} (D : Model n) (b : Box) (I : Fin 4 → ℝ) (c : Fin n → ℝ) (p : V3) :
    isProjectable3 (pinholeProject D b I c) p = true ↔
      1e-10 < p.2.2 ∧ ∃ k, (pinholeProject D b I c p).keypoint = some k ∧ InImage b k := by
  unfold isProjectable3
  rw [decide_eq_true_eq]
  exact (pinhole_status D b I c p).1

/-- So, unlike its documentation says, it is false for points that project without any singularity outside the image. -/
theorem isProjectable_refuted : ∃ (b : Box) (I : Fin 4 → ℝ) (p : V3), PinholeValid I ∧ p.2.2 = 1 ∧
    (pinholeProject Verif.Distortion.null b I Fin.elim0 p).status = .outside ∧
    isProjectable3 (pinholeProject Verif.Distortion.null b I Fin.elim0) p = false := by
  have hs : (pinholeProject Verif.Distortion.null ⟨10, 10⟩ ![1, 1, 5, 5] Fin.elim0 (20, 0, 1)).status = .outside := by
    unfold pinholeProject pinholeEvaluate isKeypointVisible minimumDepth Verif.Distortion.null
    simp
    norm_num
  refine ⟨⟨10, 10⟩, ![1, 1, 5, 5], (20, 0, 1), ?_, rfl, hs, ?_⟩
  · unfold PinholeValid
    simp
  · unfold isProjectable3
    rw [hs]
    rfl

/-! ## Concrete cases -/

example : (pinholeProject Verif.Distortion.null ⟨640, 480⟩ ![200, 300, 320, 240] Fin.elim0 (1, -1, 2)).keypoint =
    some (420, 90) := by
  rw [pinhole_keypoint _ _ _ _ (by norm_num)]
  simp [Verif.Distortion.null]
  norm_num

/-- A camera with `xi = 1` and a point at distance 3 in front of it meets the hypotheses of the unified theorems. -/
example : (2 : ℝ) > -(fovParameter 1 * norm3 (1, 2, 2)) ∧ norm3 (1, 2, 2) = 3 := by
  have h : norm3 (1, 2, 2) = 3 := norm3_eq (by norm_num) (by norm_num)
  rw [h]
  unfold fovParameter
  norm_num

example : (unifiedProject Verif.Distortion.null ⟨640, 480⟩ ![1, 200, 300, 320, 240] Fin.elim0 (1, 2, 2)).keypoint =
    some (360, 360) := by
  have h : norm3 (1, 2, 2) = 3 := norm3_eq (by norm_num) (by norm_num)
  rw [unified_keypoint _ _ _ _ (by simp) (by rw [h]; unfold fovParameter; simp; norm_num), h]
  simp [Verif.Distortion.null]
  norm_num

/-- Back-projection with `xi > 1` inside the boundary circle. -/
example : unifiedBackProject Verif.Distortion.null ![5 / 4, 1, 1, 1, 1] Fin.elim0 (1, 1) = some ((0, 0, 4 / 9), true) := by
  unfold unifiedBackProject Verif.Distortion.null isUndistortedKeypointValid
  simp
  norm_num

example : isKeypointVisibleWithMargin ⟨10, 10⟩ (3, 4) 2 = some true := by
  unfold isKeypointVisibleWithMargin
  norm_num

end Verif.Camera
