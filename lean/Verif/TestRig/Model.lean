import Verif.NCamera.Model
import Mathlib.Data.Rat.Defs
import Mathlib.Algebra.Order.Ring.Unbundled.Rat
import Mathlib.Algebra.Order.Ring.Rat

/-!
# Rigs for tests

Models `aslam_cv_cameras/src/random-camera-generator.cc`: the poses of the cameras, as exact rational
numbers, and the rigs, as objects of `Verif.NCamera`, in which the transformation `k` stands for the pose of camera `k`.
The ids are given by `gen`, the call number to the id (`generateId` is the subject of `Verif.HashId`).
-/

namespace Verif.TestRig

open Verif (Outcome)
open Verif.NCamera (Cam Rig construct copy)

/-- `Eigen::Vector3d` (random-camera-generator.cc:23-24, 53-81). -/
structure Vec where
  x : ℚ
  y : ℚ
  z : ℚ
  deriving DecidableEq, Repr

/-- `Eigen::Matrix3d` by its rows (random-camera-generator.cc:53-81). -/
structure Rot where
  r0 : Vec
  r1 : Vec
  r2 : Vec
  deriving DecidableEq, Repr

/-- `-v` (random-camera-generator.cc:78-81). -/
def Vec.neg (v : Vec) : Vec := ⟨-v.x, -v.y, -v.z⟩

/-- The inverse of a rotation (random-camera-generator.cc:78-81). -/
def Rot.transpose (R : Rot) : Rot := ⟨⟨R.r0.x, R.r1.x, R.r2.x⟩, ⟨R.r0.y, R.r1.y, R.r2.y⟩, ⟨R.r0.z, R.r1.z, R.r2.z⟩⟩

/-- The rotation of a unit quaternion, given with the real part first (random-camera-generator.cc:24). -/
def ofQuaternion (w x y z : ℚ) : Rot :=
  ⟨⟨1 - 2 * (y * y + z * z), 2 * (x * y - w * z), 2 * (x * z + w * y)⟩,
    ⟨2 * (x * y + w * z), 1 - 2 * (x * x + z * z), 2 * (y * z - w * x)⟩,
    ⟨2 * (x * z - w * y), 2 * (y * z + w * x), 1 - 2 * (x * x + y * y)⟩⟩

/-- `Transformation` T_C_B: rotation and translation (random-camera-generator.cc:25, 78-81). -/
structure Pose where
  rotation : Rot
  position : Vec
  deriving DecidableEq, Repr

/-- The pose of camera `i` of `createUniqueTestNCamera` (random-camera-generator.cc:22-26). -/
def testPose (i : Nat) : Pose := ⟨ofQuaternion (1 / 2) (1 / 2) (-1 / 2) (1 / 2), ⟨1 / 10 * (i + 1), 0, 0⟩⟩

/-- `t_B_C` of the surround rig (random-camera-generator.cc:53, 59, 65, 71). -/
def surroundPosition : List Vec := [⟨2, 0, 0⟩, ⟨0, 1, 0⟩, ⟨-1, 0, 0⟩, ⟨0, -1, 0⟩]

/-- `R_B_C` of the surround rig (random-camera-generator.cc:54-57, 60-63, 66-69, 72-75). -/
def surroundRotation : List Rot :=
  [⟨⟨0, 0, 1⟩, ⟨-1, 0, 0⟩, ⟨0, -1, 0⟩⟩, ⟨⟨1, 0, 0⟩, ⟨0, 0, 1⟩, ⟨0, -1, 0⟩⟩, ⟨⟨0, 0, -1⟩, ⟨1, 0, 0⟩, ⟨0, -1, 0⟩⟩,
    ⟨⟨-1, 0, 0⟩, ⟨0, 0, -1⟩, ⟨0, -1, 0⟩⟩]

/-- The poses of `createSurroundViewUniqueTestNCamera` (random-camera-generator.cc:77-81). -/
def surroundPoses : List Pose :=
  List.zipWith (fun R t => ⟨R.transpose, t.neg⟩) surroundRotation surroundPosition

/-- The cameras of a test rig: `n` test cameras with new ids (random-camera-generator.cc:19-20, 44-48;
camera-pinhole.h:247-256); `distortion` is 1 for the test distortion, 0 for none. -/
def testCameras (gen : Nat → Nat) (distortion n : Nat) : List Cam :=
  (List.range n).map fun k => ⟨gen k, distortion, 0, true⟩

/-- A rig of all cameras, then copied by the function that returns a shared pointer (random-camera-generator.cc:11-13,
29-37, 40-42, 82-84). -/
def testRig (gen : Nat → Nat) (distortion n : Nat) : Outcome (List Cam × Rig) :=
  let cams := testCameras gen distortion n
  construct cams (gen n) (List.range n) ((List.range n).map some) >>= fun r => copy cams r

/-- `createTestNCamera` (random-camera-generator.cc:11-38). -/
def createTestNCamera (gen : Nat → Nat) (n : Nat) : Outcome (List Cam × Rig) := testRig gen 1 n

/-- `createSurroundViewTestNCamera` (random-camera-generator.cc:40-85). -/
def createSurroundViewTestNCamera (gen : Nat → Nat) : Outcome (List Cam × Rig) := testRig gen 0 4

end Verif.TestRig
