import Verif.Distortion.Model
import Mathlib.Algebra.Order.Floor.Semiring

/-!
# Cameras

Model of projection and back-projection of `aslam_cv_cameras`: `camera.cc`, `camera-inl.h`, `camera-pinhole.cc`,
`camera-pinhole-inl.h` and `camera-unified-projection.cc`, in exact real arithmetic.  Values that are not finite in the
code (division by zero) are `none`.  All outputs are computed; passing null pointers for some of them leaves the others
unchanged in the code.
-/

namespace Verif.Camera

open Verif.Distortion (M2 Model)
open Classical

/-- `Eigen::Vector2d` with exact reals: keypoints (camera-pinhole.cc:47-134). -/
abbrev V2 := ℝ × ℝ
/-- `Eigen::Vector3d` with exact reals: points and bearings (camera-pinhole.cc:47-134). -/
abbrev V3 := ℝ × ℝ × ℝ
/-- `Eigen::Vector4d` with exact reals: homogeneous points (camera.cc:340-385). -/
abbrev V4 := ℝ × ℝ × ℝ × ℝ

/-- A 2×3 matrix by rows. -/
structure J23 where
  a : ℝ
  b : ℝ
  c : ℝ
  d : ℝ
  e : ℝ
  f : ℝ

/-- A 2×4 matrix by rows. -/
structure J24 where
  a : ℝ
  b : ℝ
  c : ℝ
  d : ℝ
  e : ℝ
  f : ℝ
  g : ℝ
  h : ℝ

/-- `ProjectionResult::Status` (camera.h:37-48). -/
inductive Status where
  | visible
  | outside
  | behind
  | invalid
  | uninitialized
deriving DecidableEq

/-- The size of the image (camera.h:667-670). -/
structure Box where
  width : Nat
  height : Nat

/-- `isKeypointVisible` (camera-inl.h:17-25). -/
def isKeypointVisible (b : Box) (k : V2) : Prop := k.1 ≥ 0 ∧ k.2 ≥ 0 ∧ k.1 < b.width ∧ k.2 < b.height

/-- What `project3Functional` returns.  Jacobians with respect to parameters are given by columns. -/
structure Result (m n : Nat) where
  status : Status
  keypoint : Option V2
  jacPoint : Option J23
  jacIntrinsics : Option (Fin m → V2)
  jacDistortion : Option (Fin n → V2)

/-! ## Pinhole -/

/-- `kMinimumDepth` (camera-pinhole.cc:234, camera-unified-projection.h:268). -/
noncomputable def minimumDepth : ℝ := 1e-10

/-- `PinholeCamera::evaluateProjectionResult` (camera-pinhole-inl.h:48-65) if the keypoint is finite. -/
noncomputable def pinholeEvaluate (b : Box) (k : V2) (z : ℝ) : Status :=
  let visibility := isKeypointVisible b k
  if visibility ∧ z > minimumDepth then .visible
  else if ¬ visibility ∧ z > minimumDepth then .outside
  else if z < 0 then .behind
  else .invalid

/-- `PinholeCamera::project3Functional` (camera-pinhole.cc:65-164) with intrinsics `fu, fv, cu, cv`.  At depth zero the
keypoint is not finite and the status is `PROJECTION_INVALID` whether or not it counts as visible. -/
noncomputable def pinholeProject {n : Nat} (D : Model n) (b : Box) (intrinsics : Fin 4 → ℝ) (coefficients : Fin n → ℝ)
    (p : V3) : Result 4 n :=
  let fu := intrinsics 0
  let fv := intrinsics 1
  let cu := intrinsics 2
  let cv := intrinsics 3
  let x := p.1
  let y := p.2.1
  let z := p.2.2
  if z = 0 then ⟨.invalid, none, none, none, none⟩
  else
    let rz := 1 / z
    let kp := (x * rz, y * rz)
    let jd := D.parameterJacobian coefficients kp
    let J := D.jacobian coefficients kp
    let kd := D.distort coefficients kp
    let rz2 := rz * rz
    let out := (fu * kd.1 + cu, fv * kd.2 + cv)
    { status := pinholeEvaluate b out z
      keypoint := some out
      jacPoint := some ⟨fu * J.a * rz, fu * J.b * rz, -fu * (x * J.a + y * J.b) * rz2,
        fv * J.c * rz, fv * J.d * rz, -fv * (x * J.c + y * J.d) * rz2⟩
      jacIntrinsics := some ![(kd.1, 0), (0, kd.2), (1, 0), (0, 1)]
      jacDistortion := some fun i => ((jd i).1 * fu, (jd i).2 * fv) }

/-- `PinholeCamera::backProject3` (camera-pinhole.cc:47-63): the point and the success flag. -/
noncomputable def pinholeBackProject {n : Nat} (D : Model n) (intrinsics : Fin 4 → ℝ) (coefficients : Fin n → ℝ)
    (keypoint : V2) : Option V3 × Bool :=
  let kp := ((keypoint.1 - intrinsics 2) / intrinsics 0, (keypoint.2 - intrinsics 3) / intrinsics 1)
  ((D.undistort coefficients kp).map fun q => (q.1, q.2, 1), true)

/-- `PinholeCamera::areParametersValid` (camera-pinhole.cc:212-218). -/
def PinholeValid (i : Fin 4 → ℝ) : Prop := i 0 > 0 ∧ i 1 > 0 ∧ i 2 > 0 ∧ i 3 > 0

/-! ## Unified projection -/

/-- `norm` of a point (used at camera-unified-projection.cc:110). -/
noncomputable def norm3 (p : V3) : ℝ := Real.sqrt (p.1 * p.1 + p.2.1 * p.2.1 + p.2.2 * p.2.2)

/-- `fov_parameter` (camera-unified-projection.h:219). -/
noncomputable def fovParameter (xi : ℝ) : ℝ := if xi ≤ 1 then xi else 1 / xi

/-- `UnifiedProjectionCamera::evaluateProjectionResult` (camera-unified-projection.cc:200-217). -/
noncomputable def unifiedEvaluate (b : Box) (k : V2) (p : V3) : Status :=
  let visibility := isKeypointVisible b k
  let d2 := p.1 * p.1 + p.2.1 * p.2.1 + p.2.2 * p.2.2
  let minDepth2 := minimumDepth * minimumDepth
  if visibility ∧ d2 > minDepth2 then .visible
  else if ¬ visibility ∧ d2 > minDepth2 then .outside
  else .invalid

/-- `UnifiedProjectionCamera::project3Functional` (camera-unified-projection.cc:74-198) with intrinsics
`xi, fu, fv, cu, cv`.  If the projection is not valid the Jacobian with respect to the point is not written. -/
noncomputable def unifiedProject {n : Nat} (D : Model n) (b : Box) (intrinsics : Fin 5 → ℝ) (coefficients : Fin n → ℝ)
    (p : V3) : Result 5 n :=
  let xi := intrinsics 0
  let fu := intrinsics 1
  let fv := intrinsics 2
  let cu := intrinsics 3
  let cv := intrinsics 4
  let x := p.1
  let y := p.2.1
  let z := p.2.2
  let d := norm3 p
  if ¬ z > -(fovParameter xi * d) then
    ⟨.invalid, some (0, 0), none, some fun _ => (0, 0), some fun _ => (0, 0)⟩
  else if z + xi * d = 0 then ⟨.invalid, none, none, none, none⟩
  else
    let rz := 1 / (z + xi * d)
    let kp := (x * rz, y * rz)
    let jd := D.parameterJacobian coefficients kp
    let JD := D.jacobian coefficients kp
    let kd := D.distort coefficients kp
    -- the point Jacobian, lines 134-157
    let r0 := rz * rz / d
    let a00 := r0 * (d * z + xi * (y * y + z * z))
    let a10 := -r0 * xi * x * y
    let a01 := a10
    let a11 := r0 * (d * z + xi * (x * x + z * z))
    let r1 := r0 * (-xi * z - d)
    let a02 := x * r1
    let a12 := y * r1
    let b00 := fu * (a00 * JD.a + a10 * JD.b)
    let b10 := fv * (a00 * JD.c + a10 * JD.d)
    let b01 := fu * (a01 * JD.a + a11 * JD.b)
    let b11 := fv * (a01 * JD.c + a11 * JD.d)
    let b02 := fu * (a02 * JD.a + a12 * JD.b)
    let b12 := fv * (a02 * JD.c + a12 * JD.d)
    -- the intrinsics Jacobian, lines 160-176
    let jxi := (-x * rz * d * rz, -y * rz * d * rz)
    let c0 := (JD.a * fu * jxi.1 + JD.b * fu * jxi.2, JD.c * fv * jxi.1 + JD.d * fv * jxi.2)
    let out := (fu * kd.1 + cu, fv * kd.2 + cv)
    { status := unifiedEvaluate b out p
      keypoint := some out
      jacPoint := some ⟨b00, b01, b02, b10, b11, b12⟩
      jacIntrinsics := some ![c0, (kd.1, 0), (0, kd.2), (1, 0), (0, 1)]
      jacDistortion := some fun i => ((jd i).1 * fu, (jd i).2 * fv) }

/-- `isUndistortedKeypointValid` (camera-unified-projection.cc:219-222). -/
def isUndistortedKeypointValid (rho2 xi : ℝ) : Prop := xi ≤ 1 ∨ rho2 ≤ 1 / (xi * xi - 1)

/-- `UnifiedProjectionCamera::backProject3` (camera-unified-projection.cc:54-72): the point and the success flag.  The
divisor is zero only for a negative `xi` or `xi = 0` and no finite keypoint, so it is not treated separately. -/
noncomputable def unifiedBackProject {n : Nat} (D : Model n) (intrinsics : Fin 5 → ℝ) (coefficients : Fin n → ℝ)
    (keypoint : V2) : Option (V3 × Bool) :=
  let xi := intrinsics 0
  let kp := ((keypoint.1 - intrinsics 3) / intrinsics 1, (keypoint.2 - intrinsics 4) / intrinsics 2)
  (D.undistort coefficients kp).map fun q =>
    let rho2 := q.1 * q.1 + q.2 * q.2
    let tmpD := max (1 + (1 - xi * xi) * rho2) 0
    ((q.1, q.2, 1 - xi * (rho2 + 1) / (xi + Real.sqrt tmpD)), decide (isUndistortedKeypointValid rho2 xi))

/-- `UnifiedProjectionCamera::areParametersValid` (camera-unified-projection.cc:294-301). -/
def UnifiedValid (i : Fin 5 → ℝ) : Prop := i 0 ≥ 0 ∧ i 1 > 0 ∧ i 2 > 0 ∧ i 3 > 0 ∧ i 4 > 0

/-! ## Homogeneous points -/

/-- The euclidean point that `project4` projects (camera.cc:346-350, 361-365). -/
noncomputable def euclidean (h : V4) : V3 :=
  if h.2.2.2 < 0 then (-h.1, -h.2.1, -h.2.2.1) else (h.1, h.2.1, h.2.2.1)

/-- `Camera::project4` (camera.cc:340-372): status, keypoint and Jacobian. -/
noncomputable def project4 {m n : Nat} (project3 : V3 → Result m n) (h : V4) : Status × Option V2 × Option J24 :=
  let r := project3 (euclidean h)
  (r.status, r.keypoint, r.jacPoint.map fun J => ⟨J.a, J.b, J.c, 0, J.d, J.e, J.f, 0⟩)

/-- `Camera::backProject4` (camera.cc:374-384), given what `backProject3` returns. -/
def backProject4 (r : V3) : V4 := (r.1, r.2.1, r.2.2, 0)

/-- `Camera::isProjectable3` (camera.cc:386-390). -/
def isProjectable3 {m n : Nat} (project3 : V3 → Result m n) (p : V3) : Bool := (project3 p).status = .visible

/-- `Camera::isProjectable4` (camera.cc:392-396). -/
noncomputable def isProjectable4 {m n : Nat} (project3 : V3 → Result m n) (h : V4) : Bool :=
  (project4 project3 h).1 = .visible

/-- `Camera::project3Vectorized` (camera.cc:398-412): the loop over the columns; `out` are the columns and results
written so far. -/
def project3Vectorized {m n : Nat} (project3 : V3 → Result m n) :
    List V3 → List (Option V2) × List Status → List (Option V2) × List Status
  | [], out => out
  | p :: ps, out =>
    let r := project3 p
    project3Vectorized project3 ps (out.1 ++ [r.keypoint], out.2 ++ [r.status])

/-- `Camera::backProject3Vectorized` (camera.cc:414-427). -/
def backProject3Vectorized {α : Type} (backProject3 : V2 → α × Bool) :
    List V2 → List α × List Bool → List α × List Bool
  | [], out => out
  | k :: ks, out =>
    let r := backProject3 k
    backProject3Vectorized backProject3 ks (out.1 ++ [r.1], out.2 ++ [r.2])

/-! ## Visibility -/

/-- `isKeypointVisibleWithMargin` (camera-inl.h:28-39); `none`: a check fails. -/
noncomputable def isKeypointVisibleWithMargin (b : Box) (k : V2) (margin : ℝ) : Option Bool :=
  if ¬ 2 * margin < b.width then none
  else if ¬ 2 * margin < b.height then none
  else some (decide (k.1 ≥ margin ∧ k.2 ≥ margin ∧ k.1 < b.width - margin ∧ k.2 < b.height - margin))

/-- The mask of a camera: `none` is the empty matrix; otherwise the value at (row, column), read only inside the image
(`setMask` checks the size, camera.cc:429-434). -/
abbrev Mask := Option (Nat → Nat → UInt8)

/-- `isMasked` (camera.h:624-633); `static_cast<int>` of a number that is not negative is its floor. -/
noncomputable def isMasked (b : Box) (mask : Mask) (k : V2) : Bool :=
  decide (k.1 < 0 ∨ k.1 ≥ b.width ∨ k.2 < 0 ∨ k.2 ≥ b.height) ||
    match mask with
    | none => false
    | some m => m ⌊k.2⌋₊ ⌊k.1⌋₊ == 0

end Verif.Camera
