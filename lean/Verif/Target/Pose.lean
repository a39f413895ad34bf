import Verif.Target.Model
import Verif.GeometricVision.Pose

/-!
# The pose of a target

Model of `aslam_cv_calibration/src/target-algorithms.cc`, on top of the observations of `Verif.Target.Model` and the pose
estimator of `Verif.GeometricVision.Pose`. The rational coordinates of the target and of the corners are taken as real
numbers. The text written to the log is not modelled.
-/

namespace Verif.Target

open Verif
open Verif.Triangulation (V Pose)
open Verif.GeometricVision (PnpCamera RansacResult absolutePoseRansacPinholeCam)

/-- A corner as a measurement, target-algorithms.cc:30-31. -/
noncomputable def measurement (p : P2) : ℝ × ℝ := ((p.1 : ℝ), (p.2 : ℝ))

/-- A point of the target as a landmark, target-algorithms.cc:33-34. -/
noncomputable def landmark (p : P3) : V := ![(p.1 : ℝ), (p.2.1 : ℝ), (p.2.2 : ℝ)]

/-- `estimateTargetTransformation` with options, target-algorithms.cc:22-49: the value returned and what `*T_G_C` is
afterwards. `camera` is `none` for a null pointer, `T_G_C` is not null; `ransac` is the RANSAC of the estimator. The estimator
keeps the flag for the refinement (pnp-pose-estimator.h:19-21) and does not read it, see `absolutePoseRansac`. -/
noncomputable def estimateTarget (ransac : List V → List V → ℝ → Nat → RansacResult) (o : Observation)
    (camera : Option PnpCamera) (T : Pose) (_runNonlinearRefinement : Bool) (pixelSigma : ℝ) (maxIters : Int) :
    Outcome (Bool × Pose) :=
  match camera with
  | none => .abort
  | some c =>
    if 0 < pixelSigma then
      if 0 < maxIters then
        (getCorrespondingTargetPoints o).bind fun ps =>
          (absolutePoseRansacPinholeCam ransac c (o.corners.map measurement) (ps.map landmark) pixelSigma maxIters.toNat
            T).bind fun r => .ok (r.1, r.2.1)
      else .abort
    else .abort

/-- `estimateTargetTransformation` without options, target-algorithms.cc:9-20. -/
noncomputable def estimateTargetDefault (ransac : List V → List V → ℝ → Nat → RansacResult) (o : Observation)
    (camera : Option PnpCamera) (T : Pose) : Outcome (Bool × Pose) :=
  match camera with
  | none => .abort
  | some c => estimateTarget ransac o (some c) T true 1 200

end Verif.Target
