import Verif.TestRig.Model
import Mathlib.Data.Rat.Floor

/-!
# Random rigs

Model of `NCamera::setRandom` (`aslam_cv_common/src/sensor.cc`, `aslam_cv_cameras/src/ncamera.cc`).  The random numbers, the
generator of ids and the rounding of sums and products in single precision are given.
-/

namespace Verif.TestRig

open Verif (Outcome)
open Verif.NCamera (Cam Rig initLoop)

/-- `(random_numbers(0) + 1.f) * 7.f + 1.f` as an integer (ncamera.cc:369). -/
def randomCount (rd : ℚ → ℚ) (r : ℚ) : Int := ⌊rd (rd (rd (r + 1) * 7) + 1)⌋

/-- The cameras of a random rig (ncamera.cc:372-383): pinhole cameras if the second number is positive, else cameras of the
unified projection model, which are geometries 0 and 1; each is the test camera of its class without distortion
(`Verif.CameraLife`) and the `k`-th has the id `gen (k + 1)`. -/
def randomCameras (gen : Nat → Nat) (r1 : ℚ) (n : Nat) : List Cam :=
  (List.range n).map fun k => ⟨gen (k + 1), 0, if 0 < r1 then 0 else 1, true⟩

/-- `NCamera::setRandom` (sensor.cc:33-36, ncamera.cc:358-394): all the cameras there are afterwards, and the rig.  The
transformation `k` is the pose `testPose k` (ncamera.cc:386-389); `id_to_index_` is filled in the loop as in the constructor. -/
def setRandom (rd : ℚ → ℚ) (gen : Nat → Nat) (r0 r1 : ℚ) (cams : List Cam) (_r : Rig) : Outcome (List Cam × Rig) :=
  let n := randomCount rd r0
  if n ≤ 15 ∧ 1 ≤ n then
    let cams' := cams ++ randomCameras gen r1 n.toNat
    let ps := (List.range n.toNat).map fun k => some (cams.length + k)
    initLoop cams' ps 0 [] >>= fun m => .ok (cams', ⟨gen 0, ps, List.range n.toNat, m⟩)
  else .abort

end Verif.TestRig
