import Verif.VisualFrame.Insert

/-!
# Visual pipelines

Model of `aslam_cv_pipeline/src/visual-pipeline.cc`, `visual-pipeline-brisk.cc`,
`visual-pipeline-freak.cc` and `visual-pipeline-null.{h,cc}`.

* A `cv::Mat` is a header that refers to a buffer; assigning it shares the buffer, `clone` makes a new one.  Pixels are
  a list of bytes.
* The detector, the extractor and the undistorter are libraries: functions given as parameters.
* Ids are given by the caller of the model (`generateId` is the subject of `Verif.HashId`).
-/

namespace Verif.VisualPipeline

open Verif (Outcome)
open Verif.VisualFrame (Frame Chan CvKeypoint CvMat setDescriptors)

/-- Pixels (visual-pipeline.cc:28-57). -/
abbrev Pixels := List UInt8

/-- `cv::Mat` of an image (visual-pipeline.cc:28-57). -/
structure Image where
  width : Nat
  height : Nat
  /-- the buffer the header refers to -/
  buffer : Nat
  deriving DecidableEq, Repr

/-- The buffers (visual-pipeline.cc:28-57). -/
abbrev Heap := List Pixels

/-- A camera: its identity and image size (visual-pipeline.h:104-111). -/
structure Cam where
  id : Nat
  width : Nat
  height : Nat
  deriving DecidableEq, Repr

/-- `VisualPipeline` (visual-pipeline.h:104-111); null pointers are `none`. -/
structure Pipeline where
  input : Option Cam
  output : Option Cam
  copyImages : Bool
  /-- the pixels of the undistorted image -/
  preprocessing : Option (Pixels → Pixels)

/-- The constructor from cameras (visual-pipeline.cc:11-17). -/
def Pipeline.fromCameras (input output : Option Cam) (copyImages : Bool) : Outcome Pipeline :=
  match input, output with
  | some i, some o => .ok ⟨some i, some o, copyImages, none⟩
  | _, _ => .abort

/-- The constructor from an undistorter (visual-pipeline.cc:20-26), given by its cameras and what it does. -/
def Pipeline.fromUndistorter (u : Option (Option Cam × Option Cam × (Pixels → Pixels))) (copyImages : Bool) :
    Outcome Pipeline :=
  match u with
  | some (i, o, f) => .ok ⟨i, o, copyImages, some f⟩
  | none => .abort

/-- What `processImage` sets in a frame (visual-pipeline.cc:28-57). -/
structure Output where
  timestamp : Int
  rawCamera : Option Cam
  camera : Option Cam
  id : Nat
  rawImage : Image
  keypoints : Frame

/-- The pixels an image refers to (visual-pipeline.cc:28-57). -/
def pixels (h : Heap) (i : Image) : Outcome Pixels :=
  match h[i.buffer]? with
  | some p => .ok p
  | none => .ub

/-- `VisualPipeline::processImage` (visual-pipeline.cc:28-57), given `processFrameImpl`: the buffers afterwards and
the frame.  The buffer of the undistorted image is temporary and left out. -/
def processImage (impl : Pixels → Frame → Outcome Frame) (p : Pipeline) (h : Heap) (raw : Image) (timestamp : Int)
    (id : Nat) : Outcome (Heap × Output) := do
  match p.input with
  | none => .ub
  | some cam => do
    Outcome.check (decide (cam.width = raw.width))
    Outcome.check (decide (cam.height = raw.height))
    let px ← pixels h raw
    let h' := if p.copyImages then h ++ [px] else h
    let stored : Image := if p.copyImages then { raw with buffer := h.length } else raw
    let image := match p.preprocessing with
      | some f => f px
      | none => px
    let kp ← impl image Frame.empty
    .ok (h', ⟨timestamp, p.input, p.output, id, stored, kp⟩)

/-- `NullVisualPipeline::processFrameImpl` (visual-pipeline-null.h:31-32). -/
def nullImpl (_ : Pixels) (f : Frame) : Outcome Frame := .ok f

/-- `processFrameImpl` of the BRISK and FREAK pipelines (visual-pipeline-brisk.cc:60-112,
visual-pipeline-freak.cc:63-115), given the detector and the extractor, which may remove keypoints.  `sigma` stands
for the constant 0.8. -/
def detectImpl (sigma : Int) (detect : Pixels → List CvKeypoint)
    (extract : Pixels → List CvKeypoint → List CvKeypoint × CvMat) (image : Pixels) (f : Frame) : Outcome Frame := do
  let found := detect image
  let r := if found = [] then ([], ⟨0, 0, [], true, true⟩) else extract image found
  let kps := r.1
  let m := r.2
  Outcome.check m.isBytes
  Outcome.check m.continuous
  let f ← setDescriptors f m.columns 0 0
  let f := f.setChan .measurements (kps.map CvKeypoint.pt)
  let f := f.setChan .scores (kps.map CvKeypoint.response)
  let f := f.setChan .orientations (kps.map CvKeypoint.angle)
  let f := f.setChan .scales (kps.map CvKeypoint.size)
  let f := f.setChan .uncertainties (List.replicate kps.length sigma)
  .ok f

/-! ### Who owns the detector -/

/-- Objects that exist, and the control blocks of shared pointers: the object and the number of owners
(visual-pipeline-brisk.cc:51-57, visual-pipeline-freak.cc:57-60). -/
structure Mem where
  live : List Nat
  blocks : List (Nat × Nat)
  next : Nat
  deriving DecidableEq, Repr

/-- `new`: a new object (visual-pipeline-brisk.cc:51-57). -/
def Mem.new (m : Mem) : Mem × Nat := ({ m with live := m.next :: m.live, next := m.next + 1 }, m.next)

/-- A shared pointer made from a raw pointer (`reset(p)`): a new control block (visual-pipeline-brisk.cc:51-57,
visual-pipeline-freak.cc:57-60). -/
def Mem.adopt (m : Mem) (o : Nat) : Mem × Nat := ({ m with blocks := m.blocks ++ [(o, 1)] }, m.blocks.length)

/-- A shared pointer is destroyed: its control block loses an owner; the last one deletes the object.  Deleting an
object that is gone is undefined.  This is `std::shared_ptr` (the members set at visual-pipeline-brisk.cc:51-57,
visual-pipeline-freak.cc:57-60). -/
def Mem.drop (m : Mem) (b : Nat) : Outcome Mem :=
  match m.blocks[b]? with
  | none => .ub
  | some (_, 0) => .ub
  | some (o, 1) =>
    if o ∈ m.live then .ok { m with live := m.live.erase o, blocks := m.blocks.set b (o, 0) } else .ub
  | some (o, n + 2) => .ok { m with blocks := m.blocks.set b (o, n + 1) }

/-- Use the object of a shared pointer (visual-pipeline-brisk.cc:60-112, visual-pipeline-freak.cc:63-115). -/
def Mem.use (m : Mem) (b : Nat) : Outcome Nat :=
  match m.blocks[b]? with
  | none => .ub
  | some (o, _) => if o ∈ m.live then .ok o else .ub

/-- `detector_.reset(new …)` (visual-pipeline-brisk.cc:51-57). -/
def resetNew (m : Mem) : Mem × Nat :=
  let (m, o) := m.new
  m.adopt o

/-- `detector_.reset(X::create(…).get())` (visual-pipeline-freak.cc:57-60): `create` returns a `cv::Ptr`, a temporary
that is destroyed at the end of the statement. -/
def resetGet (m : Mem) : Outcome (Mem × Nat) := do
  let (m, o) := m.new
  let (m, temporary) := m.adopt o
  let (m, b) := m.adopt o
  let m ← m.drop temporary
  .ok (m, b)

/-- `initializeBrisk` (visual-pipeline-brisk.cc:51-57): the detector and the extractor. -/
def initializeBrisk (m : Mem) : Mem × Nat × Nat :=
  let (m, d) := resetNew m
  let (m, e) := resetNew m
  (m, d, e)

/-- `initializeFreak` (visual-pipeline-freak.cc:57-60). -/
def initializeFreak (m : Mem) : Outcome (Mem × Nat × Nat) := do
  let (m, d) ← resetGet m
  let (m, e) ← resetGet m
  .ok (m, d, e)

end Verif.VisualPipeline
