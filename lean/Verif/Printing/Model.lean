import Verif.Base.Outcome
import Verif.Base.Decimal

/-!
# Printing tracks, frames, cameras and results

Sources: `aslam_cv_frames/include/aslam/frames/feature-track-inl.h:7-58`, `aslam_cv_frames/src/visual-frame.cc:472-484`,
`aslam_cv_common/include/aslam/common/channel.h:133-145`, `aslam_cv_cameras/src/camera.cc:16-39, 67-75`,
`camera-pinhole.cc:224-233`, `camera-unified-projection.cc:308-319`, `camera-3d-lidar.cc:132-140`,
`distortion-radtan.cc:132-142`, `distortion-equidistant.cc:187-197`, `distortion-fisheye.cc:162-169`,
`distortion-null.h:173-177`, `camera-inl.h:41-50`, `distortion-inl.h:5-16`, `triangulation.h:41-52`.

A stream is its text and its format.  Texts of identifiers and of floating-point numbers are given: the first as lists of
characters, the second as a function of the format.  Streams in decimal, without `internal` adjustment, that do not fail.
-/

namespace Verif.Printing

open Verif (Outcome)
open Verif.Decimal (natString intString)

/-- The format of a stream: fill character, whether the text is on the left, the two flags of floating-point notation and
the precision (feature-track-inl.h:15-16, 30-31, 38-40). -/
structure Format where
  fill : Char := ' '
  left : Bool := false
  fixed : Bool := false
  scientific : Bool := false
  precision : Nat := 6
  deriving DecidableEq, Repr

/-- A stream (feature-track-inl.h:7, 29, 51): what was written, the format and the width of the next text. -/
structure Stream where
  text : List Char
  format : Format
  width : Nat
  deriving DecidableEq, Repr

/-- `out << text` (feature-track-inl.h:8): filled up to the width, which is then zero. -/
def Stream.put (s : Stream) (t : List Char) : Stream :=
  let fill := List.replicate (s.width - t.length) s.format.fill
  { s with
    text := s.text ++ (if s.format.left then t ++ fill else fill ++ t)
    width := 0 }

/-- `out << "..."` (feature-track-inl.h:8). -/
def Stream.say (s : Stream) (t : String) : Stream := s.put t.toList

/-- `out << std::endl` (feature-track-inl.h:8): does not use the width. -/
def Stream.endl (s : Stream) : Stream := { s with text := s.text ++ ['\n'] }

/-- `std::setw` (feature-track-inl.h:32-34, 41-43). -/
def Stream.setw (s : Stream) (w : Nat) : Stream := { s with width := w }

/-- `std::setiosflags(std::ios::fixed)` (feature-track-inl.h:15, 30, 38): sets the flag and clears no other. -/
def Stream.setFixed (s : Stream) : Stream := { s with format := { s.format with fixed := true } }

/-- `std::setprecision` (feature-track-inl.h:16, 40). -/
def Stream.setPrecision (s : Stream) (p : Nat) : Stream := { s with format := { s.format with precision := p } }

/-- `std::setfill` (feature-track-inl.h:31, 39). -/
def Stream.setFill (s : Stream) (c : Char) : Stream := { s with format := { s.format with fill := c } }

/-- `out << matrix` (feature-track-inl.h:20): Eigen writes what the format gives and leaves no width. -/
def Stream.putMatrix {κ : Type} (s : Stream) (eigen : Format → κ → List Char) (k : κ) : Stream :=
  { s with
    text := s.text ++ eigen s.format k
    width := 0 }

/-- An observation of a track (keypoint-identifier.h:45-56): the identifier of the n-frame in print, the camera, the
measurement. -/
structure Obs (κ : Type) where
  nframe : List Char
  camera : Nat
  keypoint : κ

/-- A track (feature-track.h:87-91). -/
structure Track (κ : Type) where
  id : Nat
  obs : List (Obs κ)

variable {κ : Type} (eigen : Format → κ → List Char)

/-- One turn of the loop over the observations (feature-track-inl.h:14-22). -/
def printObs (i : Nat) (o : Obs κ) (s : Stream) : Stream :=
  (((((((((((((((s.setFixed).setPrecision 3).say "\tobservation ").put (natString i)).say ":").endl).say
    "\t\tNFrameId: ").put o.nframe).endl).say "\t\tcamera idx: ").put (natString o.camera)).endl).say
    "\t\tkeypoint: ").putMatrix eigen o.keypoint).endl).endl

/-- The loop over the observations (feature-track-inl.h:13-22). -/
def printAllObs : Nat → List (Obs κ) → Stream → Stream
  | _, [], s => s
  | i, o :: os, s => printAllObs (i + 1) os (printObs eigen i o s)

/-- `operator<<` of a track (feature-track-inl.h:7-27). -/
def printTrack (t : Track κ) (s : Stream) : Stream :=
  let s := (((((((s.say "FeatureTrack:").endl).say "\ttrack id: ").put (natString t.id)).endl).say "\tlength: ").put
    (natString t.obs.length)).endl
  match t.obs with
  | [] => s.say "\tNo observations!"
  | os => printAllObs eigen 0 os s

/-- One row of the table (feature-track-inl.h:37-44); the first keypoint is asked for, which aborts for an empty track
(feature-track.h:56-59). -/
def printRow (t : Track κ) (s : Stream) : Outcome Stream :=
  match t.obs with
  | [] => .abort
  | o :: _ =>
    .ok ((((((((((s.setFixed).setFill ' ').setPrecision 3).setw 10).put (natString t.id)).setw 10).put
      (natString o.camera)).setw 10).put (natString t.obs.length)).endl)

/-- The loop over the tracks (feature-track-inl.h:37-44). -/
def printRows : List (Track κ) → Stream → Outcome Stream
  | [], s => .ok s
  | t :: ts, s => do
    let s ← printRow t s
    printRows ts s

/-- `operator<<` of a list of tracks (feature-track-inl.h:29-49). -/
def printTracks (ts : List (Track κ)) (s : Stream) : Outcome Stream :=
  let s := ((((((((s.setFixed).setFill ' ').setw 10).say "track id").setw 10).say "camera idx").setw 10).say
    "length").endl
  match ts with
  | [] => .ok (s.say "No tracks!")
  | _ => printRows ts s

/-- The loop of `operator<<` of the tracks of a rig (feature-track-inl.h:53-57). -/
def printRigFrom : Nat → List (List (Track κ)) → Stream → Outcome Stream
  | _, [], s => .ok s
  | i, ts :: rest, s => do
    let s ← printTracks ts (((s.say "Camera: ").put (natString i)).say ":\n")
    printRigFrom (i + 1) rest (s.say "\n")

/-- `operator<<` of the tracks of a rig (feature-track-inl.h:51-58). -/
def printRig (rig : List (List (Track κ))) (s : Stream) : Outcome Stream := printRigFrom 0 rig s

/-- The names of the status of a projection, none for other values (camera.cc:19-36, camera.h:35-46). -/
inductive Projection where
  | visible
  | outside
  | behind
  | invalid
  | uninitialized
  | other (n : Int)
  deriving DecidableEq, Repr

/-- `operator<<` of the result of a projection (camera.cc:16-39). -/
def printProjection (r : Projection) (s : Stream) : Stream :=
  let name := match r with
    | .visible => "KEYPOINT_VISIBLE"
    | .outside => "KEYPOINT_OUTSIDE_IMAGE_BOX"
    | .behind => "POINT_BEHIND_CAMERA"
    | .invalid => "PROJECTION_INVALID"
    | _ => "UNINITIALIZED"
  ((s.say "ProjectionResult: ").say name).endl

/-- The status of a triangulation (triangulation.h:16-25). -/
inductive Triangulation where
  | successful
  | tooFew
  | unobservable
  | uninitialized
  | other (n : Int)
  deriving DecidableEq, Repr

/-- `operator<<` of the result of a triangulation (triangulation.h:41-52). -/
def printTriangulation (r : Triangulation) (s : Stream) : Stream :=
  let name := match r with
    | .successful => "SUCCESSFUL"
    | .tooFew => "TOO_FEW_MEASUREMENTS"
    | .unobservable => "UNOBSERVABLE"
    | _ => "UNINITIALIZED"
  ((s.say "ProjectionResult: ").say name).endl

/-- `Camera::Type` (camera.h:124-128). -/
inductive CameraType where
  | pinhole
  | unified
  | lidar
  deriving DecidableEq, Repr

/-- `operator<<` of the type of a camera (camera-inl.h:41-50): the map has no name for the lidar. -/
def printCameraType (t : CameraType) (s : Stream) : Stream :=
  s.say (match t with
    | .pinhole => "kPinhole"
    | .unified => "kUnifiedProjection"
    | .lidar => "")

/-- `Distortion::Type` (distortion.h:23-28). -/
inductive DistortionType where
  | noDistortion
  | equidistant
  | fisheye
  | radtan
  deriving DecidableEq, Repr

/-- `operator<<` of the type of a distortion (distortion-inl.h:5-16). -/
def printDistortionType (t : DistortionType) (s : Stream) : Stream :=
  s.say (match t with
    | .noDistortion => "kNoDistortion"
    | .equidistant => "kEquidistant"
    | .fisheye => "kFisheye"
    | .radtan => "kRadTan")

/-- A distortion with its parameters (distortion.h:178-181). -/
structure Distortion (κ : Type) where
  type : DistortionType
  parameters : List κ

/-- The titles of the parameters of a distortion (distortion-radtan.cc:138-141, distortion-equidistant.cc:193-196,
distortion-fisheye.cc:168). -/
def titles : DistortionType → List String
  | .noDistortion => []
  | .equidistant => ["  k1: ", "  k2: ", "  k3: ", "  k4: "]
  | .fisheye => ["  w: "]
  | .radtan => ["  k1 (radial):     ", "  k2 (radial):     ", "  p1 (tangential): ", "  p2 (tangential): "]

/-- The name of the class in print (distortion-radtan.cc:137, distortion-equidistant.cc:192, distortion-fisheye.cc:167,
distortion-null.h:176). -/
def className : DistortionType → String
  | .noDistortion => "Distortion: (NullDistortion) "
  | .equidistant => "Distortion: (EquidistantDistortion) "
  | .fisheye => "Distortion: (FisheyeDistortion) "
  | .radtan => "Distortion: (RadTanDistortion) "

/-- A number with its title on a line; a number is filled up to the width like a text (camera-pinhole.cc:226-229). -/
def Stream.line (s : Stream) (number : Format → κ → List Char) (title : String) (x : κ) : Stream :=
  ((s.say title).put (number s.format x)).endl

/-- The lines of the parameters (distortion-radtan.cc:138-141, distortion-equidistant.cc:193-196,
distortion-fisheye.cc:168). -/
def printParameterLines (number : Format → κ → List Char) : List String → List κ → Stream → Stream
  | t :: ts, x :: xs, s => printParameterLines number ts xs (s.line number t x)
  | _, _, s => s

/-- `printParameters` of the distortions (distortion-radtan.cc:132-142, distortion-equidistant.cc:187-197,
distortion-fisheye.cc:162-169, distortion-null.h:173-177): the number of parameters is checked, but for no distortion. -/
def printDistortion (number : Format → κ → List Char) (d : Distortion κ) (text : List Char) (s : Stream) : Outcome Stream :=
  if d.type = .noDistortion ∨ d.parameters.length = (titles d.type).length then
    .ok (printParameterLines number (titles d.type) d.parameters (((s.put text).endl.say (className d.type)).endl))
  else .abort

/-- What cameras of all types have (camera.h:664-686). -/
structure Camera (κ : Type) where
  type : CameraType
  id : List Char
  lineDelay : Nat
  width : Nat
  height : Nat
  intrinsics : List κ
  distortion : Distortion κ

/-- `Camera::printParameters` (camera.cc:67-75). -/
def printCameraBase (c : Camera κ) (text : List Char) (s : Stream) : Stream :=
  let s := if text.length > 0 then (s.put text).endl else s
  (((((((((((((s.say "Camera(").put c.id).say "): ").put c.id).endl).say "  line delay: ").put
    (natString c.lineDelay)).endl).say "  image (cols,rows): ").put (natString c.width)).say ", ").put
    (natString c.height)).endl)

/-- Two numbers with a title on a line (camera-pinhole.cc:226-229, camera-unified-projection.cc:312-315). -/
def Stream.line2 (s : Stream) (number : Format → κ → List Char) (title : String) (x y : κ) : Stream :=
  ((((s.say title).put (number s.format x)).say ", ").put (number s.format y)).endl

/-- `printParameters` of the cameras (camera-pinhole.cc:224-233, camera-unified-projection.cc:308-319,
camera-3d-lidar.cc:132-140); intrinsics that are missing are read out of range. -/
def printCamera (number : Format → κ → List Char) (c : Camera κ) (text : List Char) (s : Stream) : Outcome Stream :=
  let s := printCameraBase c text s
  match c.type, c.intrinsics with
  | .pinhole, fu :: fv :: cu :: cv :: _ =>
    printDistortion number c.distortion text
      (((s.line2 number "  focal length (cols,rows): " fu fv).line2 number "  optical center (cols,rows): " cu cv).say
        "  distortion: ")
  | .unified, xi :: fu :: fv :: cu :: cv :: _ =>
    printDistortion number c.distortion text
      ((((s.line number "  mirror parameter (xi): " xi).line2 number "  focal length (cols,rows): " fu fv).line2 number
        "  optical center (cols,rows): " cu cv).say "  distortion: ")
  | .lidar, h :: v :: _ =>
    .ok ((((((s.line number "  horizontal angular resolution [rad]: " h).line number
      "  vertical angular resolution [rad]: " v).say "  line delay [ns]: ").put (natString c.lineDelay)).endl))
  | _, _ => .ub

/-- The lines of the names of the channels (channel.h:138-140). -/
def printNames : List (List Char) → Stream → Stream
  | [], s => s
  | n :: ns, s => printNames ns (((s.say "   - ").put n).endl)

/-- `ChannelGroup::printParameters` (channel.h:133-145); the names in the order of the hash map. -/
def printChannels (names : List (List Char)) (s : Stream) : Stream :=
  match names with
  | [] => (s.say "  Channels: empty").endl
  | _ => printNames names ((s.say "  Channels:").endl)

/-- A frame (visual-frame.h:505-511). -/
structure Frame (κ : Type) where
  id : List Char
  timestamp : Int
  camera : Option (Camera κ)
  channels : List (List Char)

/-- `VisualFrame::print` (visual-frame.cc:472-484). -/
def printFrame (number : Format → κ → List Char) (f : Frame κ) (label : List Char) (s : Stream) : Outcome Stream := do
  let s := if label.length > 0 then (s.put label).endl else s
  let s := ((((((s.say "VisualFrame(").put f.id).say ")").endl).say "  timestamp:          ").put
    (intString f.timestamp)).endl
  let s ← match f.camera with
    | some c => printCamera number c "  VisualFrame::camera".toList s
    | none => .ok (s.say "  VisualFrame::camera is NULL").endl
  .ok (printChannels f.channels s)

end Verif.Printing
