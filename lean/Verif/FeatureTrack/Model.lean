import Verif.Base.Outcome
import Mathlib.Algebra.Order.Field.Rat

/-!
# Feature tracks

Model of `aslam_cv_frames/include/aslam/frames/feature-track.h` and `keypoint-identifier.h`.
`double` values are exact rationals.
-/

namespace Verif.FeatureTrack

open Verif (Outcome)

/-- A keypoint measurement (keypoint-identifier.h:54-56). -/
abbrev Pt := ℚ × ℚ

/-- `VisualNFrame`: for every frame, if it is set, its keypoint measurements (visual-nframe.cc:85-88). -/
abbrev NFrame := List (Option (List Pt))

/-- `KeypointIdentifier` (keypoint-identifier.h:74-80).  The n-frame is shared; it is the one at the time of the
access. -/
structure Kid where
  frameIndex : Nat
  keypointIndex : Nat
  deriving DecidableEq, Repr

/-- `KeypointIdentifier::create` (keypoint-identifier.h:29-42). -/
def create (nframe : Option NFrame) (frameIndex keypointIndex : Nat) : Outcome Kid :=
  match nframe with
  | none => .abort
  | some n =>
    if ¬ frameIndex < n.length then .abort
    else
      match n[frameIndex]? with
      | none => .abort
      | some none => .abort
      | some (some kps) => if ¬ keypointIndex < kps.length then .abort else .ok ⟨frameIndex, keypointIndex⟩

/-- `getKeypointMeasurement` (keypoint-identifier.h:54-56): both indices are checked again (visual-nframe.cc:85-88,
visual-frame.cc:171-177). -/
def measurement (n : NFrame) (k : Kid) : Outcome Pt :=
  match n[k.frameIndex]? with
  | some (some kps) =>
    match kps[k.keypointIndex]? with
    | some p => .ok p
    | none => .abort
  | _ => .abort

/-- `FeatureTrack` (feature-track.h:87-91): the id and the keypoints, each with the n-frame it refers to. -/
structure Track where
  id : Nat
  kids : List (NFrame × Kid)

/-- The constructors (feature-track.h:18-24); reserving memory has no effect here. -/
def Track.empty (id : Nat) : Track := ⟨id, []⟩

/-- `addKeypointObservationAtBack` (feature-track.h:70-73). -/
def Track.add (t : Track) (n : NFrame) (frameIndex keypointIndex : Nat) : Outcome Track := do
  let k ← create (some n) frameIndex keypointIndex
  .ok { t with kids := t.kids ++ [(n, k)] }

/-- `popLastKeypointIdentifier` (feature-track.h:66-68); `pop_back` of an empty vector is undefined. -/
def Track.pop (t : Track) : Outcome Track :=
  if t.kids = [] then .ub else .ok { t with kids := t.kids.dropLast }

/-- `getFirstKeypointIdentifier` (feature-track.h:56-59). -/
def Track.first (t : Track) : Outcome (NFrame × Kid) :=
  match t.kids with
  | [] => .abort
  | k :: _ => .ok k

/-- `getLastKeypointIdentifier` (feature-track.h:61-64). -/
def Track.last (t : Track) : Outcome (NFrame × Kid) :=
  match t.kids.getLast? with
  | none => .abort
  | some k => .ok k

/-- `operator<` (feature-track.h:79-81). -/
def Track.lt (a b : Track) : Bool := decide (a.kids.length < b.kids.length)

/-- `operator>` (feature-track.h:83-85). -/
def Track.gt (a b : Track) : Bool := decide (a.kids.length > b.kids.length)

/-- `ContinuedFeatureTrack` (feature-track.h:96-114); the id is an `int`. -/
structure Continued where
  id : Int
  kid : NFrame × Kid

/-- Its constructor (feature-track.h:98-101). -/
def Continued.make (id : Int) (kid : NFrame × Kid) : Outcome Continued := if 0 ≤ id then .ok ⟨id, kid⟩ else .abort

/-- `operator<` (feature-track.h:103-105). -/
def Continued.lt (a b : Continued) : Bool := decide (a.id < b.id)

/-- `operator>` (feature-track.h:106-108). -/
def Continued.gt (a b : Continued) : Bool := decide (a.id > b.id)

/-- `std::numeric_limits<double>::max()` (feature-track.h:27-30). -/
def dblMax : ℚ := (2 - 1 / 2 ^ 52) * 2 ^ 1023

/-- `std::numeric_limits<double>::min()`: the smallest positive normalised number (feature-track.h:27-30). -/
def dblMin : ℚ := 1 / 2 ^ 1022

/-- The box being collected: `u_min, u_max, v_min, v_max` (feature-track.h:27-30). -/
structure Extent where
  uMin : ℚ
  uMax : ℚ
  vMin : ℚ
  vMax : ℚ

/-- The box before the loop (feature-track.h:27-30). -/
def Extent.start : Extent := ⟨dblMax, dblMin, dblMax, dblMin⟩

/-- One pass of the loop (feature-track.h:34-37). -/
def Extent.step (e : Extent) (p : Pt) : Extent :=
  ⟨min e.uMin p.1, max e.uMax p.1, min e.vMin p.2, max e.vMax p.2⟩

/-- `getDiagonalSqOfDisparityBoundingBox` (feature-track.h:26-42), given the measurements of the track. -/
def diagonalSq (ps : List Pt) : Outcome ℚ :=
  let e := ps.foldl Extent.step Extent.start
  if ¬ e.uMax ≥ e.uMin then .abort
  else if ¬ e.vMax ≥ e.vMin then .abort
  else .ok ((e.uMin - e.uMax) * (e.uMin - e.uMax) + (e.vMin - e.vMax) * (e.vMin - e.vMax))

/-- The measurements the loop visits (feature-track.h:32-33). -/
def measurements : List (NFrame × Kid) → Outcome (List Pt)
  | [] => .ok []
  | k :: ks => do
    let p ← measurement k.1 k.2
    let ps ← measurements ks
    .ok (p :: ps)

/-- `getDiagonalSqOfDisparityBoundingBox` of a track (feature-track.h:26-42). -/
def Track.diagonalSq (t : Track) : Outcome ℚ := do
  let ps ← measurements t.kids
  FeatureTrack.diagonalSq ps

end Verif.FeatureTrack
