import Verif.NCamera.Model

/-!
# Questions about the cameras asked to an n-frame

Model of `aslam_cv_frames/src/visual-nframe.cc:56-67, 104-132`.  An n-frame has a pointer to a rig, which may be null.
-/

namespace Verif.NCamera.NFrame

open Verif (Outcome)

/-- `CHECK_NOTNULL(camera_rig_.get())` (visual-nframe.cc:57, 105, 110, 115, 120, 125, 130). -/
def rigOf : Option Rig → Outcome Rig
  | none => .abort
  | some r => .ok r

/-- `getNumCameras` (visual-nframe.cc:104-107, ncamera.cc:212-214). -/
def getNumCameras (n : Option Rig) : Outcome Nat := rigOf n >>= fun r => .ok r.cameras.length

/-- `get_T_C_B` (visual-nframe.cc:109-112). -/
def getT (n : Option Rig) (i : Nat) : Outcome Nat := rigOf n >>= fun r => NCamera.getT r i

/-- `getCamera` (visual-nframe.cc:114-117, ncamera.cc:251-255). -/
def getCamera (cams : List Cam) (n : Option Rig) (i : Nat) : Outcome Cam :=
  rigOf n >>= fun r =>
    match r.cameras[i]? with
    | none => .abort
    | some p => deref cams p

/-- `getCameraId` (visual-nframe.cc:119-122). -/
def getCameraId (cams : List Cam) (n : Option Rig) (i : Nat) : Outcome Nat :=
  rigOf n >>= fun r => NCamera.getCameraId cams r i

/-- `hasCameraWithId` (visual-nframe.cc:124-127). -/
def hasCameraWithId (n : Option Rig) (id : Nat) : Outcome Bool := rigOf n >>= fun r => NCamera.hasCameraWithId r id

/-- `getCameraIndex` (visual-nframe.cc:129-132): the `int` of the rig is converted to `size_t`. -/
def getCameraIndex (n : Option Rig) (id : Nat) : Outcome Nat :=
  rigOf n >>= fun r => NCamera.getCameraIndex r id >>= fun i => .ok (i % 2 ^ 64).toNat

end Verif.NCamera.NFrame
