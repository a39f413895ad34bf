import Mathlib.LinearAlgebra.Matrix.Block
import Mathlib.LinearAlgebra.Matrix.PosDef
import Mathlib.Analysis.SpecialFunctions.Trigonometric.Arctan
import Verif.Base.Outcome
import Verif.Triangulation.Model

/-! Model of the pose estimators (/repo/aslam_cv_geometric_vision/src/pnp-pose-estimator.cc) around the RANSAC of OpenGV, of
the hand-written RANSAC on 3D points in the same file, and of `rotateCovariance`
(/repo/aslam_cv_common/src/covariance-helpers.cc), in exact real arithmetic. -/

namespace Verif.GeometricVision

open Verif Matrix
open Verif.Triangulation (V M3 Pose)

/-! ## Estimators built on OpenGV -/

/-- What the estimators use of a camera: its type (pinhole or unified projection, or another), `fu` and `fv`, and
`backProject3` (point, success). -/
structure PnpCamera where
  supported : Bool
  fu : ℝ
  fv : ℝ
  backProject : ℝ × ℝ → V × Bool

/-- The threshold for a focal length: `1.0 - cos(atan(pixel_sigma / focal_length))` (pnp-pose-estimator.cc:38, 48, 126). -/
noncomputable def ransacThreshold (pixelSigma focalLength : ℝ) : ℝ :=
  1 - Real.cos (Real.arctan (pixelSigma / focalLength))

/-- What a run of `opengv::sac::Ransac` leaves: whether it succeeded, the model, its inliers and the number of iterations
(read at pnp-pose-estimator.cc:167-177, 258-279). -/
structure RansacResult where
  success : Bool
  model : Pose
  inliers : List Nat
  iterations : Nat

/-- Eigen's `normalize()` (used at pnp-pose-estimator.cc:150, 237). -/
noncomputable def normalize (v : V) : V := if v ⬝ᵥ v > 0 then fun i => v i / Real.sqrt (v ⬝ᵥ v) else v

/-- `absolutePoseRansac` (pnp-pose-estimator.cc:134-178): the transformation written to `T_G_C`, and the other outputs.
The success of the back-projection and `run_nonlinear_refinement_` are not used. -/
noncomputable def absolutePoseRansac (ransac : List V → List V → ℝ → Nat → RansacResult) (c : PnpCamera)
    (measurements : List (ℝ × ℝ)) (landmarks : List V) (threshold : ℝ) (maxIterations : Nat) (T : Pose) :
    Outcome (Bool × Pose × List Nat × Nat) :=
  if measurements.length = landmarks.length then
    let r := ransac (measurements.map fun m => normalize (c.backProject m).1) landmarks threshold maxIterations
    .ok (r.success, if r.success then r.model else T, r.inliers, r.iterations)
  else .abort

/-- `absolutePoseRansacPinholeCam` (pnp-pose-estimator.cc:17-61). -/
noncomputable def absolutePoseRansacPinholeCam (ransac : List V → List V → ℝ → Nat → RansacResult) (c : PnpCamera)
    (measurements : List (ℝ × ℝ)) (landmarks : List V) (pixelSigma : ℝ) (maxIterations : Nat) (T : Pose) :
    Outcome (Bool × Pose × List Nat × Nat) :=
  if measurements.length = landmarks.length then
    if c.supported then
      absolutePoseRansac ransac c measurements landmarks (ransacThreshold pixelSigma ((c.fu + c.fv) / 2)) maxIterations T
    else .abort
  else .abort

/-- The sum over the cameras in `absoluteMultiPoseRansacPinholeCam` (pnp-pose-estimator.cc:97-122). -/
noncomputable def focalSum : List PnpCamera → ℝ → Outcome ℝ
  | [], s => .ok s
  | c :: cs, s => if c.supported then focalSum cs (s + (c.fu + c.fv)) else .abort

/-- The threshold that `absoluteMultiPoseRansacPinholeCam` passes on (pnp-pose-estimator.cc:91-126); `none` for a rig
without cameras, where zero is divided by zero. -/
noncomputable def multiThreshold (cameras : List PnpCamera) (pixelSigma : ℝ) : Outcome (Option ℝ) :=
  focalSum cameras 0 >>= fun s =>
  .ok (if cameras.isEmpty then none else some (ransacThreshold pixelSigma (s / (2 * (cameras.length : ℝ)))))

/-- What `absoluteMultiPoseRansac` hands to OpenGV (pnp-pose-estimator.cc:209-254): bearing vectors, the camera index of
each, landmarks, and the poses of the cameras in the body frame. -/
structure MultiProblem where
  bearings : List V
  cameraIndices : List Nat
  landmarks : List V
  cameras : List Pose

/-- The loop over the measurements (pnp-pose-estimator.cc:231-239); an index without camera fails a check of the rig. -/
noncomputable def multiBearings (cameras : List PnpCamera) : List (ℝ × ℝ) → List Nat → Outcome (List V)
  | m :: ms, i :: is =>
    match cameras[i]? with
    | some c => multiBearings cameras ms is >>= fun bs => .ok (normalize (c.backProject m).1 :: bs)
    | none => .abort
  | _, _ => .ok []

/-- `absoluteMultiPoseRansac` (pnp-pose-estimator.cc:180-280) without the distances of the inliers, which are passed on
like the inliers.  `extrinsics` are the `T_C_B` of the rig. -/
noncomputable def absoluteMultiPoseRansac (ransac : MultiProblem → ℝ → Nat → RansacResult)
    (refine_ : MultiProblem → List Nat → Pose → Pose) (refinement : Bool) (cameras : List PnpCamera)
    (extrinsics : List Pose) (measurements : List (ℝ × ℝ)) (indices : List Nat) (landmarks : List V) (threshold : ℝ)
    (maxIterations : Nat) (T : Pose) : Outcome (Bool × Pose × List Nat × Nat) :=
  if measurements.length = landmarks.length ∧ measurements.length = indices.length then
    multiBearings cameras measurements indices >>= fun bs =>
    let problem : MultiProblem := ⟨bs, indices, landmarks, extrinsics.map Pose.inverse⟩
    let r := ransac problem threshold maxIterations
    let model := if refinement then refine_ problem r.inliers r.model else r.model
    .ok (r.success, if r.success then model else T, r.inliers, r.iterations)
  else .abort

/-! ## RANSAC on 3D points -/

/-- Euclidean norm (used at pnp-pose-estimator.cc:399). -/
noncomputable def norm (v : V) : ℝ := Real.sqrt (v ⬝ᵥ v)

open Classical in
/-- The test for an outlier (pnp-pose-estimator.cc:397-400).  For a point at the origin the quotient is infinite, or not a
number if the error is zero too. -/
noncomputable def isOutlier (threshold : ℝ) (m : Pose) (p q : V) : Bool :=
  if norm q = 0 then decide (norm (m.act p - q) ≠ 0)
  else decide (norm (m.act p - q) / norm q > threshold)

/-- The loop over the points (pnp-pose-estimator.cc:396-405): (inliers, outliers). -/
noncomputable def classify (threshold : ℝ) (m : Pose) : Nat → List (V × V) → List Nat × List Nat → List Nat × List Nat
  | _, [], r => r
  | i, x :: xs, r =>
    classify threshold m (i + 1) xs (if isOutlier threshold m x.1 x.2 then (r.1, r.2 ++ [i]) else (r.1 ++ [i], r.2))

/-- The outputs of `ransacTransformationFor3DPoints`. -/
structure Best where
  model : Pose
  inliers : List Nat
  outliers : List Nat

open Classical in
/-- The iterations of `ransacTransformationFor3DPoints` (pnp-pose-estimator.cc:356-417).  `fit j` is the transformation
computed in iteration `j` (lines 357-390) from six randomly drawn pairs; it is a parameter.  (Lines 368-373 put six vectors
of length three into matrices of three columns, which Eigen's assertions reject and which otherwise writes past the end of
the matrix, so it need not have anything to do with the six pairs.)  The ratio is a quotient of integers.  The result
also says which iteration was the last. -/
noncomputable def ransacLoop (fit : Nat → Pose) (threshold ratio : ℝ) (pairs : List (V × V)) :
    Nat → Nat → Best → Best × Option Nat
  | 0, _, b => (b, none)
  | n + 1, j, b =>
    let r := classify threshold (fit j) 0 pairs ([], [])
    let b := { b with inliers := r.1 }
    let b := if r.1.length > b.inliers.length then { b with outliers := r.2, model := fit j } else b
    if ((r.1.length / (r.1.length + r.2.length) : Nat) : ℝ) > ratio then (b, some j)
    else
      let rest := ransacLoop fit threshold ratio pairs n (j + 1) b
      (rest.1, some (rest.2.getD j))

/-- `ransacTransformationFor3DPoints` (pnp-pose-estimator.cc:336-418). -/
noncomputable def ransac3d (fit : Nat → Pose) (threshold ratio : ℝ) (maxIterations : Nat) (set1 set2 : List V) (b : Best) :
    Outcome (Best × Option Nat) :=
  if threshold > 0 ∧ maxIterations > 0 ∧ set1.length = set2.length ∧ set2.length > 6 then
    .ok (ransacLoop fit threshold ratio (set1.zip set2) maxIterations 0 b)
  else .abort

/-- The outputs of `absoluteMultiPoseRansac3DFeatures`. -/
structure Pose3dResult where
  success : Bool
  T : Pose
  inliers : List Nat
  distances : List ℝ
  /-- `none` if the caller's variable is not written. -/
  iterations : Option Nat

/-- `absoluteMultiPoseRansac3DFeatures` (pnp-pose-estimator.cc:282-334).  `garbage` is the content of the uninitialised
`ransac_rotation_matrix` and `ransac_translation`, `T` the caller's transformation, `camera0` the extrinsics of the first
camera.  `measurements.size()` is the number of coefficients.  `getRotationMatrix()` returns a copy, so the assignment to it
(line 325) has no effect. -/
noncomputable def pose3d (fit : Nat → Pose) (garbage : Pose) (measurements : List V) (_cameraIndices : List Nat)
    (landmarks : List V) (threshold : ℝ) (maxIterations : Nat) (ratio : ℝ) (camera0 : Pose) (T : Pose) :
    Outcome Pose3dResult :=
  if measurements.length ≠ landmarks.length then .abort
  else if 3 * measurements.length < 6 then .ok ⟨false, T, [], [], none⟩
  else
    let observations := measurements.map camera0.inverse.act
    ransac3d fit threshold ratio maxIterations landmarks observations ⟨garbage, [], []⟩ >>= fun r =>
    .ok ⟨true, ⟨T.R, r.1.model.p⟩, r.1.inliers,
      r.1.inliers.map fun i => norm (r.1.model.act (landmarks.getD i 0) - observations.getD i 0), some maxIterations⟩

/-! ## Covariances -/

/-- Indices of a 6×6 matrix: three for the position and three for the rotation. -/
abbrev I6 := Fin 3 ⊕ Fin 3

/-- The block-diagonal matrix in `rotateCovariance` (covariance-helpers.cc:10-13). -/
def covarianceTransformation (T_B_A : Pose) : Matrix I6 I6 ℝ := Matrix.fromBlocks T_B_A.R 0 0 T_B_A.R

/-- `rotateCovariance` (covariance-helpers.cc:6-16). -/
def rotateCovariance (T_B_A : Pose) (A : Matrix I6 I6 ℝ) : Matrix I6 I6 ℝ :=
  covarianceTransformation T_B_A * A * (covarianceTransformation T_B_A)ᵀ

end Verif.GeometricVision
