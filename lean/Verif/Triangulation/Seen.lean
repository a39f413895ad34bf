import Verif.Triangulation.Model
import Verif.Camera.Model
import Verif.Base.Outcome

/-!
# Triangulating a feature track from its keypoints

`triangulateFeatureTrack` (`aslam_cv_triangulation/src/triangulation.cc:264-311`) from keypoints to landmark: the
back-projection of the cameras, the normalisation, the checks and the solver.
-/

namespace Verif.Triangulation

open Matrix
open Verif (Outcome)

/-- A point in the type of the triangulation (triangulation.cc:290-292). -/
def toV (p : Verif.Camera.V3) : V := ![p.1, p.2.1, p.2.2]

/-- A keypoint identifier of a track (triangulation.cc:283-291, keypoint-identifier.h:54-75): the keypoint, the
back-projection of its camera without the success flag, which the code does not look at (`none`: not finite), and
the pose of the body in the camera. -/
structure Sighting where
  keypoint : Verif.Camera.V2
  backProject3 : Verif.Camera.V2 → Option Verif.Camera.V3
  T_C_B : Pose

/-- `normalized_measurement` (triangulation.cc:290-292); `none`: not finite. -/
noncomputable def normalized (s : Sighting) : Option (ℝ × ℝ) :=
  match s.backProject3 s.keypoint with
  | none => none
  | some r => if r.2.2 = 0 then none else some (r.1 / r.2.2, r.2.1 / r.2.2)

open Classical in
/-- `triangulateFeatureTrack` (triangulation.cc:264-311) for a track of `n` keypoint identifiers, all with cameras;
`.ok none`: the solver is given numbers that are not finite. -/
noncomputable def triangulateTrack {n k : Nat} (q : QR (Fin n × Fin 3) (Fin 3 ⊕ Fin n)) (track : Fin n → Sighting)
    (T_W_B : Fin k → Pose) : Outcome (Option (Status × Option V)) :=
  if h1 : 1 < n then
    if h2 : n = k then
      let T_B_C := (track ⟨0, by omega⟩).T_C_B.inverse
      if h3 : ∀ i, (normalized (track i)).isSome then
        .ok (some (nViews q (fun i => (normalized (track i)).get (h3 i)) (fun i => T_W_B (i.cast h2)) T_B_C))
      else .ok none
    else .abort
  else .abort

end Verif.Triangulation
