import Verif.Base.Outcome
import Verif.Camera.Model

/-!
# Raw image coordinates

Model of `VisualFrame::toRawImageCoordinates`, its vectorised version and `getKeypointInRawImageCoordinates`
(visual-frame.cc:486-520).  A frame has a camera, by which its keypoints are meant, and the camera that took the raw
image.  The cameras are given by what their virtual functions compute, see `Verif.Camera`; numbers are exact and
back-projections are finite.
-/

namespace Verif.VisualFrame.Raw

open Verif (Outcome)
open Verif.Camera (V2 V3 Status Result Box)

/-- What the two functions use of a `Camera` (visual-frame.cc:501, 503, 515, 516): `backProject3` with its success, and
`project3` with its status; a keypoint that is not finite is `none`. -/
structure Cam where
  back : V2 → V3 × Bool
  proj : V3 → Status × Option V2

/-- `toRawImageCoordinates` (visual-frame.cc:493-507).  A missing camera is a null pointer.  The coordinates are `none` if
they are not written. -/
def toRaw (camera raw : Option Cam) (k : V2) : Outcome (Status × Option (Option V2)) :=
  match camera with
  | none => .ub
  | some c =>
    let b := c.back k
    if b.2 then
      match raw with
      | none => .ub
      | some r =>
        let p := r.proj b.1
        .ok (p.1, some p.2)
    else .ok (.invalid, none)

/-- `getKeypointMeasurement(index)` (visual-frame.cc:171-177): the check is on the index converted to `int`, after which the
column is read without another check. -/
def measurement (keypoints : List V2) (index : Nat) : Outcome V2 :=
  if (index : Int).bmod (2 ^ 32) < keypoints.length then
    match keypoints[index]? with
    | some k => .ok k
    | none => .ub
  else .abort

/-- `getKeypointInRawImageCoordinates` (visual-frame.cc:486-491). -/
def keypointToRaw (camera raw : Option Cam) (keypoints : List V2) (index : Nat) :
    Outcome (Status × Option (Option V2)) :=
  measurement keypoints index >>= fun k => toRaw camera raw k

/-- The last loop of the vectorised version (visual-frame.cc:515-519): `i` runs over the successes. -/
def markFailed : List Bool → List Status → List Status
  | ok :: oks, s :: ss => (if ok then s else .invalid) :: markFailed oks ss
  | _, ss => ss

/-- `toRawImageCoordinatesVectorized` (visual-frame.cc:509-520), with the vectorised functions of `Camera` (camera.cc:398-427)
column by column: coordinates and results. -/
def toRawVectorized (camera raw : Option Cam) (ks : List V2) : Outcome (List (Option V2) × List Status) :=
  match camera with
  | none => .ub
  | some c =>
    let b := Verif.Camera.backProject3Vectorized c.back ks ([], [])
    match raw with
    | none => .ub
    | some r =>
      let p := b.1.map r.proj
      .ok (p.map Prod.snd, markFailed b.2 (p.map Prod.fst))

/-- A pinhole camera without distortion (camera-pinhole.cc:47-164). -/
noncomputable def pinholeNull (b : Box) (I : Fin 4 → ℝ) : Cam where
  back := fun k => (((k.1 - I 2) / I 0, (k.2 - I 3) / I 1, 1), true)
  proj := fun p =>
    let r := Verif.Camera.pinholeProject Verif.Distortion.null b I Fin.elim0 p
    (r.status, r.keypoint)

/-- The camera of the raw image: a pinhole camera with any distortion (camera-pinhole.cc:65-164).  Its back-projection is
not used. -/
noncomputable def pinhole {n : Nat} (D : Verif.Distortion.Model n) (b : Box) (I : Fin 4 → ℝ) (c : Fin n → ℝ)
    (back : V2 → V3 × Bool) : Cam where
  back := back
  proj := fun p =>
    let r := Verif.Camera.pinholeProject D b I c p
    (r.status, r.keypoint)

/-- The camera of the raw image: unified projection with any distortion (camera-unified-projection.cc:74-198).  Its
back-projection is not used. -/
noncomputable def unified {n : Nat} (D : Verif.Distortion.Model n) (b : Box) (I : Fin 5 → ℝ) (c : Fin n → ℝ)
    (back : V2 → V3 × Bool) : Cam where
  back := back
  proj := fun p =>
    let r := Verif.Camera.unifiedProject D b I c p
    (r.status, r.keypoint)

end Verif.VisualFrame.Raw
