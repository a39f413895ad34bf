import Verif.Base.Outcome

/-!
# Identifiers of keypoints over time

Model of `aslam_cv_frames/include/aslam/frames/keypoint-identifier.h` together with the parts of `visual-nframe.cc` and
`visual-frame.cc` it relies on.  Frames and n-frames are objects in memory shared by pointers that count their owners: the
handles a program holds, the slots of n-frames and the identifiers.  An object is freed as soon as it has no owner.
Addresses are not used twice, so that reading from a freed object is noticed.

A frame has two channels here, the measurements and the descriptors of its keypoints; there is one block of descriptors.
The cameras of a rig are never replaced.  Indices are below `2^31`.
-/

namespace Verif.FeatureTrack.Life

open Verif (Outcome)

/-- The channels an identifier reads (visual-frame.cc:171-177, 229-234). -/
inductive Chan
  | keypoints
  | descriptors
  deriving DecidableEq, Repr

/-- `VisualFrame`: the camera, and for each channel it has, the number of the piece of memory its matrix is in and the
columns (visual-frame.h:508-511, visual-frame.cc:229-234). -/
structure Frame (α : Type) where
  cam : Option Nat
  data : Chan → Option (Nat × List α)

/-- `VisualNFrame`: the cameras of its rig, if it has one, and the frames by index (visual-nframe.h:174-179,
visual-nframe.cc:16-35). -/
structure NFrame where
  rig : Option (List Nat)
  slots : List (Option Nat)
  deriving DecidableEq, Repr

/-- `KeypointIdentifier` (keypoint-identifier.h:74-80); `owner` is the address of the n-frame. -/
structure Ident where
  owner : Nat
  frameIndex : Nat
  keypointIndex : Nat
  deriving DecidableEq, Repr

/-- All there is: objects by address, `none` for the freed ones, the handles the program holds, the identifiers it made,
`none` for those it destroyed, and the number of the next piece of memory for a matrix (keypoint-identifier.h:74-80,
visual-nframe.h:174-179). -/
structure State (α : Type) where
  frames : List (Option (Frame α))
  nframes : List (Option NFrame)
  fh : List Nat
  nh : List Nat
  ids : List (Option Ident)
  next : Nat

/-- Before the program has made anything (keypoint-identifier.h:74-80). -/
def State.start {α : Type} : State α := ⟨[], [], [], [], [], 0⟩

/-- The frame at an address, if it is alive (visual-nframe.cc:85-88). -/
def State.frame {α : Type} (s : State α) (f : Nat) : Option (Frame α) := (s.frames[f]?).join

/-- The n-frame at an address, if it is alive (keypoint-identifier.h:52). -/
def State.nframe {α : Type} (s : State α) (n : Nat) : Option NFrame := (s.nframes[n]?).join

/-- An identifier that was not destroyed (keypoint-identifier.h:74-80). -/
def State.ident {α : Type} (s : State α) (k : Nat) : Option Ident := (s.ids[k]?).join

/-- Does an identifier own this n-frame (keypoint-identifier.h:79-80)? -/
def ownedByIdent (ids : List (Option Ident)) (n : Nat) : Bool :=
  ids.any fun x => match x with
    | some k => k.owner == n
    | none => false

/-- Does an n-frame that is alive own this frame (visual-nframe.h:174-179)? -/
def ownedBySlot (nframes : List (Option NFrame)) (f : Nat) : Bool :=
  nframes.any fun x => match x with
    | some m => m.slots.contains (some f)
    | none => false

/-- `std::shared_ptr`: n-frames without owner are freed, and then frames without owner (keypoint-identifier.h:79-80,
visual-nframe.cc:140, 145). -/
def collect {α : Type} (s : State α) : State α :=
  let live := s.nframes.mapIdx fun n x => if s.nh.contains n || ownedByIdent s.ids n then x else none
  { s with
    nframes := live
    frames := s.frames.mapIdx fun f x => if s.fh.contains f || ownedBySlot live f then x else none }

/-- What a program can do with frames, n-frames and identifiers (visual-nframe.cc:69-98, 134-146,
visual-frame.cc:243-251, 441-454, keypoint-identifier.h:29-42). -/
inductive Op (α : Type)
  | newFrame (cam : Option Nat)
  | newNFrame (size : Nat)
  | setNCameras (n : Nat) (rig : List Nat)
  | setCamera (f : Nat) (cam : Nat)
  | setFrame (n i f : Nat)
  | unSetFrame (n i : Nat)
  | getFrameShared (n i : Nat)
  | setData (f : Nat) (c : Chan) (columns : List α)
  | clear (f : Nat)
  | dropFrame (f : Nat)
  | dropNFrame (n : Nat)
  | create (n i j : Nat)
  | dropIdent (k : Nat)

/-- Assigning to the matrix of a channel, made if there was none (visual-frame.cc:243-251): memory for as many columns is
kept, otherwise there is a new piece of memory, `fresh`. -/
def assign {α : Type} (fresh : Nat) (old : Option (Nat × List α)) (columns : List α) : Nat × List α :=
  match old with
  | some (b, cs) => if cs.length = columns.length then (b, columns) else (fresh, columns)
  | none => (fresh, columns)

/-- A frame with one channel assigned (visual-frame.cc:243-251). -/
def Frame.set {α : Type} (F : Frame α) (c : Chan) (x : Option (Nat × List α)) : Frame α :=
  { F with data := fun c' => if c' = c then x else F.data c' }

/-- `setCameraGeometry` for the frames in the slots (visual-nframe.cc:75-82). -/
def setCameras {α : Type} : List (Option Nat) → List Nat → List (Option (Frame α)) → List (Option (Frame α))
  | some f :: slots, c :: rig, frames =>
    setCameras slots rig (frames.modify f (Option.map fun F => { F with cam := some c }))
  | none :: slots, _ :: rig, frames => setCameras slots rig frames
  | _, _, frames => frames

/-- `CHECK_EQ(&camera_rig_->getCamera(frame_index), frame->getCameraGeometry().get())` (visual-nframe.cc:137-139). -/
def cameraFits {α : Type} (m : NFrame) (i : Nat) (F : Frame α) : Bool :=
  match m.rig with
  | none => true
  | some cs => cs[i]? == F.cam && cs[i]?.isSome

/-- The checks of the constructor (keypoint-identifier.h:38-41), with `getFrame` and `getNumKeypointMeasurements`
(visual-nframe.cc:85-88, visual-frame.cc:122-129). -/
def createChecks {α : Type} (s : State α) (m : NFrame) (i j : Nat) : Outcome Unit :=
  match m.slots[i]? with
  | none => .abort
  | some none => .abort
  | some (some f) =>
    match s.frame f with
    | none => .ub
    | some F =>
      match F.data .keypoints with
      | none => .abort
      | some (_, cs) => if j < cs.length then .ok () else .abort

/-- One call, before unowned objects are freed.  A call needs the handle it is made through: where the program does not
hold it there is no such call, and nothing happens (visual-nframe.cc:69-98, 134-146, visual-frame.cc:243-251, 441-454,
keypoint-identifier.h:29-42). -/
def act {α : Type} (s : State α) : Op α → Outcome (State α)
  | .newFrame cam =>
    .ok { s with frames := s.frames ++ [some ⟨cam, fun _ => none⟩], fh := s.frames.length :: s.fh }
  | .newNFrame size =>
    .ok { s with nframes := s.nframes ++ [some ⟨none, List.replicate size none⟩], nh := s.nframes.length :: s.nh }
  | .setNCameras n rig =>
    if n ∉ s.nh then .ok s
    else match s.nframe n with
      | none => .ub
      | some m =>
        if m.slots.length = rig.length then
          .ok { s with
            nframes := s.nframes.set n (some { m with rig := some rig })
            frames := setCameras m.slots rig s.frames }
        else .abort
  | .setCamera f cam =>
    if f ∉ s.fh then .ok s
    else match s.frame f with
      | none => .ub
      | some F => .ok { s with frames := s.frames.set f (some { F with cam := some cam }) }
  | .setFrame n i f =>
    if n ∉ s.nh ∨ f ∉ s.fh then .ok s
    else match s.nframe n, s.frame f with
      | some m, some F =>
        if i < m.slots.length then
          if cameraFits m i F then
            .ok { s with nframes := s.nframes.set n (some { m with slots := m.slots.set i (some f) }) }
          else .abort
        else .abort
      | _, _ => .ub
  | .unSetFrame n i =>
    if n ∉ s.nh then .ok s
    else match s.nframe n with
      | none => .ub
      | some m =>
        if i < m.slots.length then
          .ok { s with nframes := s.nframes.set n (some { m with slots := m.slots.set i none }) }
        else .abort
  | .getFrameShared n i =>
    if n ∉ s.nh then .ok s
    else match s.nframe n with
      | none => .ub
      | some m =>
        match m.slots[i]? with
        | none => .abort
        | some none => .ok s
        | some (some f) => .ok { s with fh := f :: s.fh }
  | .setData f c columns =>
    if f ∉ s.fh then .ok s
    else match s.frame f with
      | none => .ub
      | some F =>
        .ok { s with
          frames := s.frames.set f (some (F.set c (some (assign s.next (F.data c) columns))))
          next := s.next + 1 }
  | .clear f =>
    if f ∉ s.fh then .ok s
    else match s.frame f with
      | none => .ub
      | some F =>
        .ok { s with
          frames := s.frames.set f (some { F with
            data := fun c => some (assign (s.next + if c = .keypoints then 0 else 1) (F.data c) []) })
          next := s.next + 2 }
  | .dropFrame f => .ok { s with fh := s.fh.erase f }
  | .dropNFrame n => .ok { s with nh := s.nh.erase n }
  | .create n i j =>
    if n ∉ s.nh then .ok s
    else match s.nframe n with
      | none => .ub
      | some m => do
        createChecks s m i j
        .ok { s with ids := s.ids ++ [some ⟨n, i, j⟩] }
  | .dropIdent k => .ok { s with ids := s.ids.set k none }

/-- One call and the destructors it leads to (keypoint-identifier.h:29-42, visual-nframe.cc:134-146). -/
def step {α : Type} (s : State α) (o : Op α) : Outcome (State α) := do
  let t ← act s o
  .ok (collect t)

/-- A program (keypoint-identifier.h:29-42, visual-nframe.cc:134-146). -/
def run {α : Type} (s : State α) : List (Op α) → Outcome (State α)
  | [] => .ok s
  | o :: os => do
    let t ← step s o
    run t os

/-- `getFrame` (keypoint-identifier.h:51, visual-nframe.cc:85-88, 148-151): the address of the frame. -/
def frameOf {α : Type} (s : State α) (k : Ident) : Outcome Nat :=
  match s.nframe k.owner with
  | none => .ub
  | some m =>
    match m.slots[k.frameIndex]? with
    | none => .abort
    | some none => .abort
    | some (some f) => .ok f

/-- `getKeypointMeasurement` and `getDescriptor` give a reference to the column in the matrix: which frame, channel, piece
of memory and column (keypoint-identifier.h:54-60, visual-frame.cc:171-177, 229-234). -/
structure View where
  frame : Nat
  chan : Chan
  buffer : Nat
  column : Nat
  deriving DecidableEq, Repr

/-- `getKeypointMeasurement` and `getDescriptor` (keypoint-identifier.h:54-60, visual-frame.cc:171-177, 216-234): a channel
that is missing and an index that is too large are fatal. -/
def view {α : Type} (s : State α) (k : Ident) (c : Chan) : Outcome View := do
  let f ← frameOf s k
  match s.frame f with
  | none => .ub
  | some F =>
    match F.data c with
    | none => .abort
    | some (b, cs) => if k.keypointIndex < cs.length then .ok ⟨f, c, b, k.keypointIndex⟩ else .abort

/-- Reading through the reference that was given (keypoint-identifier.h:54-60): undefined once the frame or the memory of
the matrix is gone. -/
def deref {α : Type} (s : State α) (v : View) : Outcome α :=
  match s.frame v.frame with
  | none => .ub
  | some F =>
    match F.data v.chan with
    | none => .ub
    | some (b, cs) =>
      if b = v.buffer then
        match cs[v.column]? with
        | some x => .ok x
        | none => .ub
      else .ub

/-- Asking the identifier and reading at once (feature-track.h:33-37, feature-track-inl.h:20). -/
def read {α : Type} (s : State α) (k : Ident) (c : Chan) : Outcome α := do
  let v ← view s k c
  deref s v

/-- `getCamera` (keypoint-identifier.h:62-64, visual-nframe.cc:56-59). -/
def camera {α : Type} (s : State α) (k : Ident) : Outcome Nat :=
  match s.nframe k.owner with
  | none => .ub
  | some m =>
    match m.rig with
    | none => .abort
    | some cs =>
      match cs[k.frameIndex]? with
      | none => .abort
      | some c => .ok c

end Verif.FeatureTrack.Life
