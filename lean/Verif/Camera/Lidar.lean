import Verif.Camera.Props
import Mathlib.Analysis.SpecialFunctions.Complex.Arg

/-!
# The lidar camera (C69)

Model and properties of `Camera3DLidar` (`camera-3d-lidar.cc`, `camera-3d-lidar-inl.h`), in exact real arithmetic.
-/

namespace Verif.Camera

open Classical

/-! ## Model -/

/-- The intrinsics, in the order of `Parameters` (camera-3d-lidar.h:29-34). -/
structure LidarParams where
  horizontalResolution : ℝ
  verticalResolution : ℝ
  verticalCenter : ℝ
  horizontalCenter : ℝ

/-- `Camera3DLidar::areParametersValid` (camera-3d-lidar.cc:121-125), for four parameters. -/
def LidarValid (L : LidarParams) : Prop := L.horizontalResolution > 0 ∧ L.verticalResolution > 0

/-- `std::atan2(y, x)`, on numbers without negative zeros. -/
noncomputable def atan2 (y x : ℝ) : ℝ := Complex.arg ⟨x, y⟩

/-- `normalize` (Eigen): a zero vector stays as it is (used at camera-3d-lidar.cc:38). -/
noncomputable def normalized (p : V3) : V3 :=
  if norm3 p > 0 then (p.1 / norm3 p, p.2.1 / norm3 p, p.2.2 / norm3 p) else p

/-- `Camera3DLidar::backProject3` (camera-3d-lidar.cc:27-40); it always returns true. -/
noncomputable def lidarBackProject (L : LidarParams) (k : V2) : V3 :=
  let a := L.horizontalCenter - k.1 * L.horizontalResolution
  let b := L.verticalCenter - k.2 * L.verticalResolution
  normalized (-Real.sin a * Real.cos b, -Real.sin b, Real.cos a * Real.cos b)

/-- `Camera3DLidar::evaluateProjectionResult` (camera-3d-lidar-inl.h:43-63), with `kSquaredMinimumDepth`
(camera-3d-lidar.cc:142). -/
noncomputable def lidarEvaluate (b : Box) (k : V2) (p : V3) : Status :=
  let isVisible := isKeypointVisible b k
  let outsideMinDepth := p.1 * p.1 + p.2.1 * p.2.1 + p.2.2 * p.2.2 > 0.0001
  if isVisible ∧ outsideMinDepth then .visible
  else if ¬ isVisible ∧ outsideMinDepth then .outside
  else .invalid

/-- The template `project3Functional` (camera-3d-lidar-inl.h:11-41): the external intrinsics are checked for their
number and then not used. -/
noncomputable def lidarProjectTemplate (own : LidarParams) (b : Box) (_external : LidarParams) (p : V3) : Status × V2 :=
  if norm3 p < 1e-6 then (.invalid, (0, 0))
  else
    let bearing := normalized p
    let u := (atan2 bearing.1 bearing.2.2 + own.horizontalCenter) / own.horizontalResolution
    let u := if u < 0 then b.width + u else u
    let v := (Real.arcsin bearing.2.1 + own.verticalCenter) / own.verticalResolution
    (lidarEvaluate b (u, v) p, (u, v))

/-- `Camera3DLidar::project3Functional` (camera-3d-lidar.cc:42-75) without distortion and Jacobians (which the checks
exclude). -/
noncomputable def lidarProjectFunctional (own : LidarParams) (b : Box) (external : Option LidarParams) (p : V3) :
    Status × V2 :=
  lidarProjectTemplate own b (external.getD own) p

/-- `Camera::project3` (camera.cc:300-338) for the lidar. -/
noncomputable def lidarProject (L : LidarParams) (b : Box) (p : V3) : Status × V2 := lidarProjectFunctional L b none p

/-! ## Specification -/

/-- The unit vector with azimuth `θ` around the y axis from the z axis and elevation `φ` towards y.
Specification, not code: what the angles at camera-3d-lidar.cc:33-37 measure. -/
noncomputable def direction (θ φ : ℝ) : V3 := (Real.sin θ * Real.cos φ, Real.sin φ, Real.cos θ * Real.cos φ)

/-- The image covers a full turn.  Specification, not code: the case the wrapping at camera-3d-lidar-inl.h:32-34 is for. -/
def FullTurn (L : LidarParams) (b : Box) : Prop := b.width * L.horizontalResolution = 2 * Real.pi

/-! ## Properties -/

theorem norm3_direction (θ φ : ℝ) : norm3 (direction θ φ) = 1 := by
  refine norm3_eq zero_le_one ?_
  unfold direction
  have h1 := Real.sin_sq_add_cos_sq θ
  have h2 := Real.sin_sq_add_cos_sq φ
  simp only
  linear_combination -Real.cos φ ^ 2 * h1 - h2

theorem normalized_unit {p : V3} (h : norm3 p = 1) : normalized p = p := by
  unfold normalized
  rw [if_pos (by rw [h]; exact one_pos), h]
  simp

theorem normalized_scale {t : ℝ} (ht : 0 < t) {p : V3} (h : norm3 p = 1) : normalized (scale t p) = p := by
  unfold normalized
  have hn : norm3 (scale t p) = t := by rw [norm3_scale ht.le, h, mul_one]
  rw [if_pos (by rw [hn]; exact ht), hn]
  unfold scale
  simp only
  rw [mul_div_cancel_left₀ _ ht.ne', mul_div_cancel_left₀ _ ht.ne', mul_div_cancel_left₀ _ ht.ne']

/-- C69, back-projection: a keypoint is seen in the direction whose azimuth and elevation are its coordinates times the
resolutions, from the centers; the vector has length one. -/
theorem lidar_backProject (L : LidarParams) (k : V2) :
    lidarBackProject L k = direction (k.1 * L.horizontalResolution - L.horizontalCenter)
      (k.2 * L.verticalResolution - L.verticalCenter) ∧ norm3 (lidarBackProject L k) = 1 := by
  have h : lidarBackProject L k = direction (k.1 * L.horizontalResolution - L.horizontalCenter)
      (k.2 * L.verticalResolution - L.verticalCenter) := by
    unfold lidarBackProject
    simp only
    have e : (-Real.sin (L.horizontalCenter - k.1 * L.horizontalResolution) *
          Real.cos (L.verticalCenter - k.2 * L.verticalResolution),
        -Real.sin (L.verticalCenter - k.2 * L.verticalResolution),
        Real.cos (L.horizontalCenter - k.1 * L.horizontalResolution) *
          Real.cos (L.verticalCenter - k.2 * L.verticalResolution)) =
        direction (k.1 * L.horizontalResolution - L.horizontalCenter)
          (k.2 * L.verticalResolution - L.verticalCenter) := by
      unfold direction
      rw [← Real.sin_neg, ← Real.sin_neg, neg_sub, neg_sub,
        ← Real.cos_neg (L.horizontalCenter - k.1 * L.horizontalResolution),
        ← Real.cos_neg (L.verticalCenter - k.2 * L.verticalResolution), neg_sub, neg_sub]
    rw [e, normalized_unit (norm3_direction _ _)]
  exact ⟨h, by rw [h, norm3_direction]⟩

theorem atan2_direction {r θ : ℝ} (hr : 0 < r) (h1 : -Real.pi < θ) (h2 : θ ≤ Real.pi) :
    atan2 (Real.sin θ * r) (Real.cos θ * r) = θ := by
  unfold atan2
  have : (⟨Real.cos θ * r, Real.sin θ * r⟩ : ℂ) = (r : ℂ) * (Complex.cos θ + Complex.sin θ * Complex.I) := by
    apply Complex.ext
    · simp [← Complex.ofReal_cos, ← Complex.ofReal_sin, mul_comm]
    · simp [← Complex.ofReal_cos, ← Complex.ofReal_sin, mul_comm]
  rw [this]
  exact Complex.arg_mul_cos_add_sin_mul_I hr ⟨h1, h2⟩

/-- What `project3` computes for a point in a given direction. -/
theorem lidar_project_direction (L : LidarParams) (b : Box) (θ φ t : ℝ) (ht : 1e-6 ≤ t) (hθ1 : -Real.pi < θ)
    (hθ2 : θ ≤ Real.pi) (hφ1 : -(Real.pi / 2) < φ) (hφ2 : φ < Real.pi / 2) :
    (lidarProject L b (scale t (direction θ φ))).2 =
      (if (θ + L.horizontalCenter) / L.horizontalResolution < 0 then
          b.width + (θ + L.horizontalCenter) / L.horizontalResolution
        else (θ + L.horizontalCenter) / L.horizontalResolution,
        (φ + L.verticalCenter) / L.verticalResolution) := by
  have ht0 : 0 < t := lt_of_lt_of_le (by norm_num) ht
  unfold lidarProject lidarProjectFunctional lidarProjectTemplate
  rw [if_neg (by rw [norm3_scale ht0.le, norm3_direction, mul_one]; exact not_lt.2 ht)]
  simp only
  rw [normalized_scale ht0 (norm3_direction θ φ)]
  have hc : 0 < Real.cos φ := Real.cos_pos_of_mem_Ioo ⟨hφ1, hφ2⟩
  have e1 : atan2 (direction θ φ).1 (direction θ φ).2.2 = θ := atan2_direction hc hθ1 hθ2
  have e2 : Real.arcsin (direction θ φ).2.1 = φ := Real.arcsin_sin hφ1.le hφ2.le
  rw [e1, e2]

theorem direction_period (θ φ : ℝ) : direction (θ - 2 * Real.pi) φ = direction θ φ := by
  unfold direction
  rw [Real.sin_sub_two_pi, Real.cos_sub_two_pi]

/-- C69, keypoint to point and back: if the image covers a full turn, the azimuth of column zero is in `(-π, π]` and
the elevation of the keypoint is strictly between the poles, the points in front of a keypoint of the image project to
that keypoint.  Missing: azimuth `-π` for column zero, where it is false (`lidar_seam_refuted`). -/
theorem lidar_project_backProject_partial (L : LidarParams) (b : Box) (hL : LidarValid L) (hfull : FullTurn L b)
    (hc1 : -Real.pi ≤ L.horizontalCenter) (hc2 : L.horizontalCenter < Real.pi) (k : V2) (hk1 : 0 ≤ k.1)
    (hk2 : k.1 < b.width) (hφ1 : -(Real.pi / 2) < k.2 * L.verticalResolution - L.verticalCenter)
    (hφ2 : k.2 * L.verticalResolution - L.verticalCenter < Real.pi / 2) (t : ℝ) (ht : 1e-6 ≤ t) :
    (lidarProject L b (scale t (lidarBackProject L k))).2 = k := by
  obtain ⟨hr, hv⟩ := hL
  unfold FullTurn at hfull
  rw [(lidar_backProject L k).1]
  have hpos : 0 ≤ k.1 * L.horizontalResolution := mul_nonneg hk1 hr.le
  have hlt : k.1 * L.horizontalResolution < 2 * Real.pi := by
    rw [← hfull]
    exact mul_lt_mul_of_pos_right hk2 hr
  have e2 : (k.2 * L.verticalResolution - L.verticalCenter + L.verticalCenter) / L.verticalResolution = k.2 := by
    rw [sub_add_cancel, mul_div_cancel_right₀ _ hv.ne']
  rcases le_or_gt (k.1 * L.horizontalResolution - L.horizontalCenter) Real.pi with h | h
  · rw [lidar_project_direction L b _ _ t ht (by linarith) h hφ1 hφ2, sub_add_cancel,
      mul_div_cancel_right₀ _ hr.ne', if_neg (not_lt.2 hk1), e2]
  · rw [← direction_period, lidar_project_direction L b _ _ t ht (by linarith) (by linarith) hφ1 hφ2, e2]
    have e1 : (k.1 * L.horizontalResolution - L.horizontalCenter - 2 * Real.pi + L.horizontalCenter) /
        L.horizontalResolution = k.1 - b.width := by
      rw [← hfull, div_eq_iff hr.ne']
      ring
    rw [e1, if_pos (by linarith)]
    simp

/-- Without a full turn it holds where the azimuth is in `(-π, π]`. -/
theorem lidar_project_backProject_sector (L : LidarParams) (b : Box) (hL : LidarValid L) (k : V2) (hk1 : 0 ≤ k.1)
    (hθ1 : -Real.pi < k.1 * L.horizontalResolution - L.horizontalCenter)
    (hθ2 : k.1 * L.horizontalResolution - L.horizontalCenter ≤ Real.pi)
    (hφ1 : -(Real.pi / 2) < k.2 * L.verticalResolution - L.verticalCenter)
    (hφ2 : k.2 * L.verticalResolution - L.verticalCenter < Real.pi / 2) (t : ℝ) (ht : 1e-6 ≤ t) :
    (lidarProject L b (scale t (lidarBackProject L k))).2 = k := by
  obtain ⟨hr, hv⟩ := hL
  rw [(lidar_backProject L k).1, lidar_project_direction L b _ _ t ht hθ1 hθ2 hφ1 hφ2, sub_add_cancel,
    mul_div_cancel_right₀ _ hr.ne', if_neg (not_lt.2 hk1), sub_add_cancel, mul_div_cancel_right₀ _ hv.ne']

/-- If column zero has azimuth `-π`, its keypoints come back one image width to the right, outside the image. -/
theorem lidar_seam_refuted (L : LidarParams) (b : Box) (hL : LidarValid L) (hfull : FullTurn L b)
    (hc : L.horizontalCenter = Real.pi) (v : ℝ) (hφ1 : -(Real.pi / 2) < v * L.verticalResolution - L.verticalCenter)
    (hφ2 : v * L.verticalResolution - L.verticalCenter < Real.pi / 2) :
    (lidarProject L b (lidarBackProject L (0, v))).2 = (↑b.width, v) ∧
      (lidarProject L b (lidarBackProject L (0, v))).1 = .outside := by
  obtain ⟨hr, hv⟩ := hL
  unfold FullTurn at hfull
  have hs : lidarBackProject L (0, v) = scale 1 (lidarBackProject L (0, v)) := by
    unfold scale
    simp
  have hd : lidarBackProject L (0, v) = scale 1 (direction Real.pi (v * L.verticalResolution - L.verticalCenter)) := by
    rw [hs, (lidar_backProject L (0, v)).1, ← direction_period Real.pi]
    simp only
    rw [hc]
    congr 2
    ring
  have hk : (lidarProject L b (lidarBackProject L (0, v))).2 = (↑b.width, v) := by
    rw [hd, lidar_project_direction L b _ _ 1 (by norm_num) (by linarith [Real.pi_pos]) le_rfl hφ1 hφ2, hc]
    have e : (Real.pi + Real.pi) / L.horizontalResolution = b.width := by
      rw [div_eq_iff hr.ne', hfull]
      ring
    rw [e, if_neg (not_lt.2 (Nat.cast_nonneg _)), sub_add_cancel, mul_div_cancel_right₀ _ hv.ne']
  refine ⟨hk, ?_⟩
  have hn := (lidar_backProject L (0, v)).2
  have hsq := norm3_sq (lidarBackProject L (0, v))
  rw [hn] at hsq
  have hp : (lidarProject L b (lidarBackProject L (0, v))).1 =
      lidarEvaluate b (lidarProject L b (lidarBackProject L (0, v))).2 (lidarBackProject L (0, v)) := by
    unfold lidarProject lidarProjectFunctional lidarProjectTemplate
    rw [if_neg (by rw [hn]; norm_num)]
  rw [hp, hk]
  unfold lidarEvaluate isKeypointVisible
  simp only
  rw [if_neg (fun h => absurd h.1.2.2.1 (lt_irrefl _)),
    if_pos ⟨fun h => absurd h.2.2.1 (lt_irrefl _), by rw [← hsq]; norm_num⟩]

/-- C69, point to keypoint and back: the direction of the point is recovered if the column did not wrap or the image
covers a full turn. -/
theorem lidar_backProject_project (L : LidarParams) (b : Box) (hL : LidarValid L) (p : V3) (hp : 1e-6 ≤ norm3 p)
    (hw : 0 ≤ (atan2 p.1 p.2.2 + L.horizontalCenter) / L.horizontalResolution ∨ FullTurn L b) :
    lidarBackProject L (lidarProject L b p).2 = (p.1 / norm3 p, p.2.1 / norm3 p, p.2.2 / norm3 p) := by
  obtain ⟨hr, hv⟩ := hL
  have hn : 0 < norm3 p := lt_of_lt_of_le (by norm_num) hp
  have hnorm : normalized p = (p.1 / norm3 p, p.2.1 / norm3 p, p.2.2 / norm3 p) := by
    unfold normalized
    rw [if_pos hn]
  have hat : atan2 (p.1 / norm3 p) (p.2.2 / norm3 p) = atan2 p.1 p.2.2 := by
    unfold atan2
    have : (⟨p.2.2 / norm3 p, p.1 / norm3 p⟩ : ℂ) = ((1 / norm3 p : ℝ) : ℂ) * ⟨p.2.2, p.1⟩ := by
      apply Complex.ext
      · rw [Complex.re_ofReal_mul]
        ring
      · rw [Complex.im_ofReal_mul]
        ring
    rw [this, Complex.arg_real_mul _ (one_div_pos.2 hn)]
  have hk : (lidarProject L b p).2 =
      (if (atan2 p.1 p.2.2 + L.horizontalCenter) / L.horizontalResolution < 0 then
          b.width + (atan2 p.1 p.2.2 + L.horizontalCenter) / L.horizontalResolution
        else (atan2 p.1 p.2.2 + L.horizontalCenter) / L.horizontalResolution,
        (Real.arcsin (p.2.1 / norm3 p) + L.verticalCenter) / L.verticalResolution) := by
    unfold lidarProject lidarProjectFunctional lidarProjectTemplate
    rw [if_neg (not_lt.2 hp)]
    simp only
    rw [hnorm]
    simp only
    rw [hat]
  have hsq := norm3_sq p
  set x := p.1 / norm3 p with hx
  set y := p.2.1 / norm3 p with hy
  set z := p.2.2 / norm3 p with hz
  have hunit : x ^ 2 + y ^ 2 + z ^ 2 = 1 := by
    rw [hx, hy, hz]
    field_simp
    linear_combination -hsq
  have hy1 : -1 ≤ y := by nlinarith [sq_nonneg x, sq_nonneg z]
  have hy2 : y ≤ 1 := by nlinarith [sq_nonneg x, sq_nonneg z]
  have hcos : Real.cos (Real.arcsin y) = ‖(⟨z, x⟩ : ℂ)‖ := by
    rw [Real.cos_arcsin, Complex.norm_def, Complex.normSq_mk]
    congr 1
    linear_combination -hunit
  have hdir : direction (atan2 p.1 p.2.2) (Real.arcsin y) = (x, y, z) := by
    unfold direction
    rw [hcos, ← hat, Real.sin_arcsin hy1 hy2]
    unfold atan2
    have e1 := Complex.norm_mul_sin_arg (⟨z, x⟩ : ℂ)
    have e2 := Complex.norm_mul_cos_arg (⟨z, x⟩ : ℂ)
    rw [mul_comm] at e1 e2
    rw [e1, e2]
  have ev : (Real.arcsin y + L.verticalCenter) / L.verticalResolution * L.verticalResolution - L.verticalCenter =
      Real.arcsin y := by
    rw [div_mul_cancel₀ _ hv.ne', add_sub_cancel_right]
  rw [(lidar_backProject L _).1, hk]
  simp only
  rw [ev]
  split
  · rename_i hneg
    have hf : FullTurn L b := by
      rcases hw with h | h
      · exact absurd hneg (not_lt.2 h)
      · exact h
    unfold FullTurn at hf
    have eu : (b.width + (atan2 p.1 p.2.2 + L.horizontalCenter) / L.horizontalResolution) * L.horizontalResolution -
        L.horizontalCenter = atan2 p.1 p.2.2 + 2 * Real.pi := by
      rw [add_mul, hf, div_mul_cancel₀ _ hr.ne']
      ring
    rw [eu, ← direction_period, add_sub_cancel_right, hdir]
  · rw [div_mul_cancel₀ _ hr.ne', add_sub_cancel_right, hdir]

/-- Without a full turn a column that wraps stands for another direction. -/
theorem lidar_wrap_refuted : ∃ (L : LidarParams) (b : Box) (p : V3), LidarValid L ∧ norm3 p = 1 ∧
    lidarBackProject L (lidarProject L b p).2 ≠ p := by
  have hn : norm3 (-1, 0, 0) = 1 := norm3_eq zero_le_one (by norm_num)
  refine ⟨⟨1, 1, 0, 0⟩, ⟨1, 1⟩, (-1, 0, 0), ⟨one_pos, one_pos⟩, hn, ?_⟩
  have hpi := Real.pi_gt_three
  have hpi2 := Real.pi_le_four
  have hd : ((-1, 0, 0) : V3) = scale 1 (direction (-(Real.pi / 2)) 0) := by
    unfold scale direction
    simp
  have hk := lidar_project_direction ⟨1, 1, 0, 0⟩ ⟨1, 1⟩ (-(Real.pi / 2)) 0 1 (by norm_num) (by linarith) (by linarith)
    (by linarith) (by linarith)
  rw [← hd] at hk
  rw [hk, (lidar_backProject _ _).1]
  simp only [add_zero, div_one]
  rw [if_pos (by linarith)]
  intro h
  have h3 := congrArg (fun q : V3 => q.2.2) h
  unfold direction at h3
  simp only [mul_one, sub_zero, Real.cos_zero, Nat.cast_one] at h3
  rw [show (1 : ℝ) + -(Real.pi / 2) = -(Real.pi / 2 - 1) by ring, Real.cos_neg, Real.cos_pi_div_two_sub] at h3
  have := Real.sin_pos_of_pos_of_lt_pi one_pos (by linarith)
  linarith

/-- C69, status. -/
theorem lidar_status (L : LidarParams) (b : Box) (p : V3) :
    ((lidarProject L b p).1 = .visible ↔ 0.01 < norm3 p ∧ InImage b (lidarProject L b p).2) ∧
    ((lidarProject L b p).1 = .outside ↔ 0.01 < norm3 p ∧ ¬ InImage b (lidarProject L b p).2) ∧
    ((lidarProject L b p).1 = .invalid ↔ norm3 p ≤ 0.01) := by
  have hd : (p.1 * p.1 + p.2.1 * p.2.1 + p.2.2 * p.2.2 > 0.0001) ↔ 0.01 < norm3 p := by
    rw [← norm3_sq, gt_iff_lt]
    have := norm3_nonneg p
    constructor
    · intro h
      by_contra hn
      rw [not_lt] at hn
      have := mul_self_le_mul_self this hn
      norm_num at *
      linarith
    · intro h
      have := mul_self_lt_mul_self (by norm_num) h
      norm_num at *
      linarith
  by_cases hs : norm3 p < 1e-6
  · have hs' : ¬ 0.01 < norm3 p := fun h => by
      norm_num at *
      linarith
    have hp : (lidarProject L b p).1 = .invalid := by
      unfold lidarProject lidarProjectFunctional lidarProjectTemplate
      rw [if_pos hs]
    rw [hp]
    exact ⟨⟨(fun h => nomatch h), fun h => absurd h.1 hs'⟩, ⟨(fun h => nomatch h), fun h => absurd h.1 hs'⟩,
      ⟨fun _ => not_lt.1 hs', fun _ => rfl⟩⟩
  · have hp : (lidarProject L b p).1 = lidarEvaluate b (lidarProject L b p).2 p := by
      unfold lidarProject lidarProjectFunctional lidarProjectTemplate
      rw [if_neg hs]
    have hv : isKeypointVisible b (lidarProject L b p).2 ↔ InImage b (lidarProject L b p).2 := visible_iff b _
    rw [hp]
    unfold lidarEvaluate
    simp only [hd, hv]
    by_cases h1 : InImage b (lidarProject L b p).2 <;> by_cases h2 : 0.01 < norm3 p <;>
      simp [h1, h2, ← not_lt]

/-- External intrinsics are not used: the result is that of the camera's own, even where the other parameters would
give a different keypoint. -/
theorem lidar_external_refuted :
    (∀ (L : LidarParams) (b : Box) (e : LidarParams) (p : V3),
      lidarProjectFunctional L b (some e) p = lidarProject L b p) ∧
    ∃ (L e : LidarParams) (b : Box) (p : V3), LidarValid L ∧ LidarValid e ∧
      (lidarProjectFunctional L b (some e) p).2 ≠ (lidarProject e b p).2 := by
  refine ⟨fun _ _ _ _ => rfl, ⟨1, 1, 0, 0⟩, ⟨1, 1, 0, 1⟩, ⟨10, 10⟩, (0, 0, 1), ⟨one_pos, one_pos⟩, ⟨one_pos, one_pos⟩, ?_⟩
  have hpi := Real.pi_gt_three
  have hd : ((0, 0, 1) : V3) = scale 1 (direction 0 0) := by
    unfold scale direction
    simp
  have h1 := lidar_project_direction ⟨1, 1, 0, 0⟩ ⟨10, 10⟩ 0 0 1 (by norm_num) (by linarith) (by linarith)
    (by linarith) (by linarith)
  have h2 := lidar_project_direction ⟨1, 1, 0, 1⟩ ⟨10, 10⟩ 0 0 1 (by norm_num) (by linarith) (by linarith)
    (by linarith) (by linarith)
  rw [← hd] at h1 h2
  show (lidarProject ⟨1, 1, 0, 0⟩ ⟨10, 10⟩ (0, 0, 1)).2 ≠ _
  rw [h1, h2]
  norm_num

/-- The test camera of the library (camera-3d-lidar.h:235-247) covers a full turn and meets the hypotheses. -/
example : LidarValid ⟨2 * Real.pi / 1024, 0.009203703, 0.289916642, 0⟩ ∧
    FullTurn ⟨2 * Real.pi / 1024, 0.009203703, 0.289916642, 0⟩ ⟨1024, 64⟩ ∧
    ∀ v : ℝ, 0 ≤ v → v < 64 → -(Real.pi / 2) < v * 0.009203703 - 0.289916642 ∧
      v * 0.009203703 - 0.289916642 < Real.pi / 2 := by
  have := Real.pi_gt_three
  refine ⟨⟨by positivity, by norm_num⟩, ?_, fun v h1 h2 => ⟨?_, ?_⟩⟩
  · unfold FullTurn
    push_cast
    ring
  · norm_num at *
    linarith
  · norm_num at *
    linarith

end Verif.Camera
