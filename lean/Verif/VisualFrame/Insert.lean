import Verif.VisualFrame.Model

/-!
# Inserting detector output into a frame

Model of `aslam_cv_tracker/src/tracking-helpers.cc`.

* As in `Verif.VisualFrame.Model` an entry of a channel is an integer standing for its value (for the
  measurements: for the point).  The casts from `float` to `double` are exact.
* Entries `conservativeResize` leaves uninitialised are a parameter.
-/

namespace Verif.VisualFrame

open Verif (Outcome)

/-- `cv::KeyPoint`: the fields the code reads (tracking-helpers.cc:40-45, 116-121). -/
structure CvKeypoint where
  pt : Int
  response : Int
  size : Int
  angle : Int
  deriving DecidableEq, Repr

/-- `cv::Mat` of descriptors: the data of a matrix stored row by row (tracking-helpers.cc:24-27, 59-65). -/
structure CvMat where
  rows : Nat
  cols : Nat
  data : List UInt8
  /-- `type() == CV_8UC1` -/
  isBytes : Bool
  /-- `isContinuous()` -/
  continuous : Bool
  deriving DecidableEq, Repr

/-- The columns of `Eigen::Map<const DescriptorsT>(data, cols, rows)`, which reads the same memory column by
column (tracking-helpers.cc:62-65, 137-140). -/
def CvMat.columns (m : CvMat) : List Desc :=
  (List.range m.rows).map fun i => (m.data.drop (i * m.cols)).take m.cols

/-- `!frame->hasX() || frame->getX().rows() == 0` (tracking-helpers.cc:16-23). -/
def absentOrEmpty : Option (List Int) → Bool
  | none => true
  | some d => decide (d.length = 0)

/-- `!frame->hasDescriptors() || frame->getDescriptors().cols() == 0` (tracking-helpers.cc:17); `getDescriptors()`
looks at the first block and aborts without one (visual-frame.cc:103-108). -/
def noDescriptors (f : Frame) : Outcome Bool :=
  match f.descriptors with
  | none => .ok true
  | some blocks =>
    match blocks[0]? with
    | none => .abort
    | some b => .ok (decide (b.length = 0))

/-- The checks of the arguments (tracking-helpers.cc:24-27, 79-82). -/
def argumentsOk (kps : List CvKeypoint) (m : CvMat) (u : Int) : Bool :=
  decide (0 < u) && decide (kps.length = m.rows) && m.isBytes && m.continuous

/-- `insertCvKeypointsAndDescriptorsIntoEmptyVisualFrame` (tracking-helpers.cc:12-66); `swapX` adds the channel if it is
missing and replaces the data (visual-frame.cc:354-408). -/
def insertEmpty (f : Frame) (kps : List CvKeypoint) (m : CvMat) (u : Int) : Outcome Frame := do
  Outcome.check (absentOrEmpty (f.chan .measurements))
  let none_ ← noDescriptors f
  Outcome.check none_
  Outcome.check (absentOrEmpty (f.chan .uncertainties))
  Outcome.check (absentOrEmpty (f.chan .orientations))
  Outcome.check (absentOrEmpty (f.chan .scales))
  Outcome.check (absentOrEmpty (f.chan .scores))
  Outcome.check (absentOrEmpty (f.chan .trackIds))
  Outcome.check (argumentsOk kps m u)
  let f := f.setChan .measurements (kps.map CvKeypoint.pt)
  let f := f.setChan .scores (kps.map CvKeypoint.response)
  let f := f.setChan .scales (kps.map CvKeypoint.size)
  let f := f.setChan .orientations (kps.map CvKeypoint.angle)
  let f := f.setChan .uncertainties (List.replicate kps.length u)
  let f := f.setChan .trackIds (List.replicate kps.length (-1))
  setDescriptors f m.columns 0 0

/-- `conservativeResize(n)`: keep what fits, the rest is uninitialised (tracking-helpers.cc:102-109). -/
def conservativeResize {α : Type} (junk : α) (n : Nat) (d : List α) : List α :=
  d.take n ++ List.replicate (n - d.length) junk

/-- `conservativeResize(start + new.size())` followed by `segment(start, new.size()) = new`
(tracking-helpers.cc:102-108, 124-134). -/
def extendAt {α : Type} (junk : α) (start : Nat) (new d : List α) : List α :=
  (conservativeResize junk (start + new.length) d).take start ++ new

/-- The block assignment to the descriptors (tracking-helpers.cc:109, 135-140) for a matrix with `rows0` rows and the
columns `b`: the first `m.cols` bytes of each new column are written; a block beyond the matrix is undefined. -/
def extendBlock (junk : UInt8) (start rows0 : Nat) (m : CvMat) (b : List Desc) : Outcome (List Desc) :=
  if 0 < m.rows ∧ rows0 < m.cols then .ub
  else
    let r := conservativeResize (List.replicate rows0 junk) (start + m.rows) b
    .ok (r.take start ++ List.zipWith (fun old new => new ++ old.drop m.cols) (r.drop start) m.columns)

/-- `insertAdditionalCvKeypointsAndDescriptorsToVisualFrame` (tracking-helpers.cc:68-141).  `rows0` is the number of
rows of the frame's first descriptor block. -/
def insertAdditional (junk : Int) (junkB : UInt8) (rows0 : Nat) (f : Frame) (kps : List CvKeypoint)
    (m : CvMat) (u : Int) : Outcome Frame := do
  let pts ← get (f.chan .measurements)
  let blocks ← get f.descriptors
  let uncertainties ← get (f.chan .uncertainties)
  let orientations ← get (f.chan .orientations)
  let scales ← get (f.chan .scales)
  let scores ← get (f.chan .scores)
  let ids ← get (f.chan .trackIds)
  Outcome.check (argumentsOk kps m u)
  let n := ids.length
  match blocks[0]? with
  | none => .abort
  | some b => do
    let f := f.setChan .measurements (extendAt junk n (kps.map CvKeypoint.pt) pts)
    let f := f.setChan .orientations (extendAt junk n (kps.map CvKeypoint.angle) orientations)
    let f := f.setChan .scales (extendAt junk n (kps.map CvKeypoint.size) scales)
    let f := f.setChan .scores (extendAt junk n (kps.map CvKeypoint.response) scores)
    let f := f.setChan .trackIds (extendAt junk n (List.replicate kps.length (-1)) ids)
    let f := f.setChan .uncertainties (extendAt junk n (List.replicate kps.length u) uncertainties)
    let b' ← extendBlock junkB n rows0 m b
    .ok { f with descriptors := some (blocks.set 0 b') }

end Verif.VisualFrame
