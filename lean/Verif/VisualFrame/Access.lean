import Verif.Base.Outcome

/-!
# The accessors of visual frames

Model of the functions `has…`, `get…`, `get…Mutable`, `get…(index)`, `set…`, `swap…` of
`aslam_cv_frames/src/visual-frame.cc` for everything but descriptors (those are in
`Verif.VisualFrame.Model`), and of `releaseRawImage`.

* Each function names the channels it works on; the names are written down function by function, as the
  code has them.
* The channel group is a map from names to a typed value (channel.h:121-131); sharing of channels between
  groups is the subject of `Verif.Channels`.
* One column of a matrix or one row of a vector is an integer standing for its value; an image is a handle.
-/

namespace Verif.VisualFrame.Access

open Verif (Outcome)

/-- What can be stored in a frame, apart from descriptors (visual-frame.h:66-94). -/
inductive Field where
  | measurements
  | uncertainties
  | orientations
  | scores
  | scales
  | positions3d
  | timeOffsets
  | trackIds
  | rawImage
  deriving DecidableEq, Repr

/-- The C++ types of channels (channel-definitions.h:9-43). -/
inductive Ty where
  | matrix2Xd
  | matrix3Xd
  | vectorXd
  | vectorXi
  | descriptors
  | cvMat
  /-- a type that no channel declared by the library has -/
  | other
  deriving DecidableEq, Repr

/-- A value of a channel (channel-definitions.h:9-43): columns of a matrix or rows of a vector, or the handle
of an image (`none`: an empty `cv::Mat`). -/
inductive Val where
  | cols (l : List Int)
  | mat (handle : Option Nat)
  deriving DecidableEq, Repr

/-- `ChannelMap` (channel.h:121). -/
abbrev Group := String → Option (Ty × Val)

/-- `ChannelGroup()` (channel.h:124). -/
def Group.empty : Group := fun _ => none

/-- The type a channel is declared with (channel-definitions.h:9-43). -/
def declared : String → Ty
  | "VISUAL_KEYPOINT_MEASUREMENTS" => .matrix2Xd
  | "VISUAL_KEYPOINT_MEASUREMENT_UNCERTAINTIES" => .vectorXd
  | "VISUAL_KEYPOINT_ORIENTATIONS" => .vectorXd
  | "VISUAL_KEYPOINT_SCALES" => .vectorXd
  | "VISUAL_KEYPOINT_SCORES" => .vectorXd
  | "VISUAL_KEYPOINT_3D_POSITIONS" => .matrix3Xd
  | "VISUAL_KEYPOINT_TIME_OFFSETS" => .vectorXi
  | "DESCRIPTORS" => .descriptors
  | "DESCRIPTOR_TYPES" => .vectorXi
  | "TRACK_IDS" => .vectorXi
  | "RAW_IMAGE" => .cvMat
  | "CV_MAT" => .cvMat
  | _ => .other

/-- The value of a new channel: the default constructor of its type (channel.h:69-76, channel-declaration.h:76). -/
def initial : Ty → Val
  | .cvMat => .mat none
  | _ => .cols []

/-- `has_NAME_Channel` (channel-declaration.h:81-86). -/
def hasChannel (g : Group) (name : String) : Bool := (g name).isSome

/-- `get_NAME_Data` (channel-declaration.h:26-38). -/
def getData (g : Group) (name : String) : Outcome Val :=
  match g name with
  | none => .abort
  | some (t, v) => if t = declared name then .ok v else .abort

/-- Assigning to the reference that `get_NAME_Data` returned (channel-declaration.h:37). -/
def putData (g : Group) (name : String) (v : Val) : Group :=
  fun n => if n = name then some (declared name, v) else g n

/-- `add_NAME_Channel` (channel-declaration.h:68-79). -/
def addChannel (g : Group) (name : String) : Outcome Group :=
  match g name with
  | some _ => .abort
  | none => .ok (putData g name (initial (declared name)))

/-- `remove_NAME_Channel` (channel-declaration.h:88-94). -/
def removeChannel (g : Group) (name : String) : Outcome Group :=
  match g name with
  | none => .abort
  | some _ => .ok (fun n => if n = name then none else g n)

/-! ### Which channel each function names -/

/-- `hasKeypointMeasurements` … `hasRawImage` (visual-frame.cc:50-79). -/
def hasName : Field → String
  | .measurements => "VISUAL_KEYPOINT_MEASUREMENTS"
  | .uncertainties => "VISUAL_KEYPOINT_MEASUREMENT_UNCERTAINTIES"
  | .orientations => "VISUAL_KEYPOINT_ORIENTATIONS"
  | .scores => "VISUAL_KEYPOINT_SCORES"
  | .scales => "VISUAL_KEYPOINT_SCALES"
  | .positions3d => "VISUAL_KEYPOINT_3D_POSITIONS"
  | .timeOffsets => "VISUAL_KEYPOINT_TIME_OFFSETS"
  | .trackIds => "TRACK_IDS"
  | .rawImage => "RAW_IMAGE"

/-- `getKeypointMeasurements` … `getRawImage` (visual-frame.cc:81-113). -/
def getName : Field → String
  | .measurements => "VISUAL_KEYPOINT_MEASUREMENTS"
  | .uncertainties => "VISUAL_KEYPOINT_MEASUREMENT_UNCERTAINTIES"
  | .orientations => "VISUAL_KEYPOINT_ORIENTATIONS"
  | .scores => "VISUAL_KEYPOINT_SCORES"
  | .scales => "VISUAL_KEYPOINT_SCALES"
  | .positions3d => "VISUAL_KEYPOINT_3D_POSITIONS"
  | .timeOffsets => "VISUAL_KEYPOINT_TIME_OFFSETS"
  | .trackIds => "TRACK_IDS"
  | .rawImage => "RAW_IMAGE"

/-- `getKeypointMeasurementsMutable` … `getRawImageMutable` (visual-frame.cc:119-169). -/
def mutableName : Field → String
  | .measurements => "VISUAL_KEYPOINT_MEASUREMENTS"
  | .uncertainties => "VISUAL_KEYPOINT_MEASUREMENT_UNCERTAINTIES"
  | .scales => "VISUAL_KEYPOINT_SCALES"
  | .orientations => "VISUAL_KEYPOINT_ORIENTATIONS"
  | .scores => "VISUAL_KEYPOINT_SCORES"
  | .positions3d => "VISUAL_KEYPOINT_3D_POSITIONS"
  | .timeOffsets => "VISUAL_KEYPOINT_TIME_OFFSETS"
  | .trackIds => "TRACK_IDS"
  | .rawImage => "RAW_IMAGE"

/-- `getKeypointMeasurement(index)` … `getKeypointTimeOffset(index)`, `getTrackId(index)`
(visual-frame.cc:171-214, 236-241); there is none for images. -/
def itemName : Field → Option String
  | .measurements => some "VISUAL_KEYPOINT_MEASUREMENTS"
  | .uncertainties => some "VISUAL_KEYPOINT_MEASUREMENT_UNCERTAINTIES"
  | .orientations => some "VISUAL_KEYPOINT_ORIENTATIONS"
  | .scores => some "VISUAL_KEYPOINT_SCORES"
  | .scales => some "VISUAL_KEYPOINT_SCALES"
  | .positions3d => some "VISUAL_KEYPOINT_3D_POSITIONS"
  | .timeOffsets => some "VISUAL_KEYPOINT_TIME_OFFSETS"
  | .trackIds => some "TRACK_IDS"
  | .rawImage => none

/-- The names that a setter or a swapping function asks for, adds and gets (visual-frame.cc:243-439). -/
structure Names where
  has : String
  add : String
  get : String

/-- `setKeypointMeasurements` … `setKeypointTimeOffsets`, `setTrackIds`, `setRawImage`
(visual-frame.cc:243-304, 335-351). -/
def setNames : Field → Names
  | .measurements => ⟨"VISUAL_KEYPOINT_MEASUREMENTS", "VISUAL_KEYPOINT_MEASUREMENTS",
      "VISUAL_KEYPOINT_MEASUREMENTS"⟩
  | .uncertainties => ⟨"VISUAL_KEYPOINT_MEASUREMENT_UNCERTAINTIES",
      "VISUAL_KEYPOINT_MEASUREMENT_UNCERTAINTIES", "VISUAL_KEYPOINT_MEASUREMENT_UNCERTAINTIES"⟩
  | .orientations => ⟨"VISUAL_KEYPOINT_ORIENTATIONS", "VISUAL_KEYPOINT_ORIENTATIONS",
      "VISUAL_KEYPOINT_ORIENTATIONS"⟩
  | .scores => ⟨"VISUAL_KEYPOINT_SCORES", "VISUAL_KEYPOINT_SCORES", "VISUAL_KEYPOINT_SCORES"⟩
  | .scales => ⟨"VISUAL_KEYPOINT_SCALES", "VISUAL_KEYPOINT_SCALES", "VISUAL_KEYPOINT_SCALES"⟩
  | .positions3d => ⟨"VISUAL_KEYPOINT_3D_POSITIONS", "VISUAL_KEYPOINT_3D_POSITIONS",
      "VISUAL_KEYPOINT_3D_POSITIONS"⟩
  | .timeOffsets => ⟨"VISUAL_KEYPOINT_TIME_OFFSETS", "VISUAL_KEYPOINT_TIME_OFFSETS",
      "VISUAL_KEYPOINT_TIME_OFFSETS"⟩
  | .trackIds => ⟨"TRACK_IDS", "TRACK_IDS", "TRACK_IDS"⟩
  | .rawImage => ⟨"RAW_IMAGE", "RAW_IMAGE", "RAW_IMAGE"⟩

/-- `swapKeypointMeasurements` … `swapKeypointTimeOffsets`, `swapTrackIds`
(visual-frame.cc:353-408, 432-439); there is none for images. -/
def swapNames : Field → Option Names
  | .measurements => some ⟨"VISUAL_KEYPOINT_MEASUREMENTS", "VISUAL_KEYPOINT_MEASUREMENTS",
      "VISUAL_KEYPOINT_MEASUREMENTS"⟩
  | .uncertainties => some ⟨"VISUAL_KEYPOINT_MEASUREMENT_UNCERTAINTIES",
      "VISUAL_KEYPOINT_MEASUREMENT_UNCERTAINTIES", "VISUAL_KEYPOINT_MEASUREMENT_UNCERTAINTIES"⟩
  | .orientations => some ⟨"VISUAL_KEYPOINT_ORIENTATIONS", "VISUAL_KEYPOINT_ORIENTATIONS",
      "VISUAL_KEYPOINT_ORIENTATIONS"⟩
  | .scores => some ⟨"VISUAL_KEYPOINT_SCORES", "VISUAL_KEYPOINT_SCORES", "VISUAL_KEYPOINT_SCORES"⟩
  | .scales => some ⟨"VISUAL_KEYPOINT_SCALES", "VISUAL_KEYPOINT_SCALES", "VISUAL_KEYPOINT_SCALES"⟩
  | .positions3d => some ⟨"VISUAL_KEYPOINT_3D_POSITIONS", "VISUAL_KEYPOINT_3D_POSITIONS",
      "VISUAL_KEYPOINT_3D_POSITIONS"⟩
  | .timeOffsets => some ⟨"VISUAL_KEYPOINT_TIME_OFFSETS", "VISUAL_KEYPOINT_TIME_OFFSETS",
      "VISUAL_KEYPOINT_TIME_OFFSETS"⟩
  | .trackIds => some ⟨"TRACK_IDS", "TRACK_IDS", "TRACK_IDS"⟩
  | .rawImage => none

/-- Whether the swapping function tests its argument with `CHECK_NOTNULL`; only `swapTrackIds` does
(visual-frame.cc:353-408, 433). -/
def swapChecks : Field → Bool
  | .trackIds => true
  | _ => false

/-! ### The functions -/

/-- `static_cast<int>(index)` for a `size_t` (visual-frame.cc:175): the low 32 bits in two's complement. -/
def toInt (index : Nat) : Int :=
  if index % 2 ^ 32 < 2 ^ 31 then ((index % 2 ^ 32 : Nat) : Int) else ((index % 2 ^ 32 : Nat) : Int) - 2 ^ 32

/-- One column or row by its index (visual-frame.cc:171-214, 236-241): a check of the index as an `int`,
then an access that Eigen checks only in debug builds. -/
def item (g : Group) (f : Field) (index : Nat) : Outcome Int :=
  match itemName f with
  | none => .abort
  | some name => do
    match ← getData g name with
    | .mat _ => .abort
    | .cols l =>
      if toInt index < (l.length : Int) then
        match l[index]? with
        | some x => .ok x
        | none => .ub
      else .abort

/-- The beginning of setters and swapping functions (visual-frame.cc:245-247). -/
def addIfMissing (g : Group) (n : Names) : Outcome Group :=
  if hasChannel g n.has then .ok g else addChannel g n.add

/-- `set…` (visual-frame.cc:243-304, 335-351). -/
def setField (g : Group) (f : Field) (v : Val) : Outcome Group := do
  let n := setNames f
  let g ← addIfMissing g n
  let _ ← getData g n.get
  .ok (putData g n.get v)

/-- `swap…` (visual-frame.cc:353-408, 432-439): `none` is a null pointer; the second component is what the
pointer points to afterwards. -/
def swapField (g : Group) (f : Field) (p : Option Val) : Outcome (Group × Val) :=
  match swapNames f with
  | none => .abort
  | some n =>
    if swapChecks f ∧ p = none then .abort
    else do
      let g ← addIfMissing g n
      let old ← getData g n.get
      match p with
      | none => .ub
      | some v => .ok (putData g n.get v, old)

/-- `releaseRawImage` (visual-frame.cc:115-117). -/
def releaseRawImage (g : Group) : Outcome Group := removeChannel g "RAW_IMAGE"

/-- A value that fits the type of a field (visual-frame.h:216-291): the C++ type system. -/
def fits : Field → Val → Bool
  | .rawImage, .mat _ => true
  | .rawImage, .cols _ => false
  | _, .cols _ => true
  | _, .mat _ => false

/-- The calls of a user (visual-frame.h:66-291). -/
inductive Op where
  | has (f : Field)
  | get (f : Field)
  /-- reading through the pointer that `get…Mutable` returns -/
  | readMutable (f : Field)
  /-- assigning through it -/
  | writeMutable (f : Field) (v : Val)
  | item (f : Field) (index : Nat)
  | set (f : Field) (v : Val)
  | swap (f : Field) (p : Option Val)
  | release
  deriving DecidableEq, Repr

/-- What a call returns (visual-frame.h:66-291). -/
inductive Out where
  | unit
  | bool (b : Bool)
  | val (v : Val)
  | entry (x : Int)
  deriving DecidableEq, Repr

/-- One call (visual-frame.cc:50-439). -/
def step (g : Group) : Op → Outcome (Group × Out)
  | .has f => .ok (g, .bool (hasChannel g (hasName f)))
  | .get f => do
    let v ← getData g (getName f)
    .ok (g, .val v)
  | .readMutable f => do
    let v ← getData g (mutableName f)
    .ok (g, .val v)
  | .writeMutable f v => do
    let _ ← getData g (mutableName f)
    .ok (putData g (mutableName f) v, .unit)
  | .item f i => do
    let x ← Access.item g f i
    .ok (g, .entry x)
  | .set f v => do
    let g ← setField g f v
    .ok (g, .unit)
  | .swap f p => do
    let (g, old) ← swapField g f p
    .ok (g, .val old)
  | .release => do
    let g ← releaseRawImage g
    .ok (g, .unit)

/-- A sequence of calls, with what each returned (visual-frame.cc:50-439). -/
def run (g : Group) : List Op → Outcome (Group × List Out)
  | [] => .ok (g, [])
  | op :: ops => do
    let (g, o) ← step g op
    let (g, os) ← run g ops
    .ok (g, o :: os)

end Verif.VisualFrame.Access
