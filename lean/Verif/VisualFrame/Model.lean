import Verif.Base.Outcome
import Verif.StlHelpers.Model

/-!
# Per-keypoint data of a visual frame

Model of the keypoint channels of `aslam_cv_frames/src/visual-frame.cc`.

* One entry of a channel (a column of a matrix, a row of a vector) is an integer standing for its value;
  the code modelled here never looks inside, except for the sign of track ids.
* The channel group itself is the subject of `Verif.Channels`; here a channel is absent (`none`) or has
  data.  `get_…_Data` of an absent channel aborts (channel-declaration.h:26-38).
* Sizes are below `2^31` (they are `int` in Eigen), so casts between `int` and `size_t` do nothing.
-/

namespace Verif.VisualFrame

open Verif (Outcome)
open Verif.StlHelpers (eigenErase)

/-- The per-keypoint channels (channel-definitions.h) (lines 9-42). -/
inductive Chan where
  | measurements
  | uncertainties
  | orientations
  | scores
  | scales
  | positions3d
  | timeOffsets
  | trackIds
  deriving DecidableEq, Repr

/-- One descriptor: the bytes of a column of a descriptor matrix (channel-definitions.h:34-35). -/
abbrev Desc := List UInt8

/-- The keypoint data of a `VisualFrame` (channel-definitions.h:9-42). -/
structure Frame where
  chan : Chan → Option (List Int)
  /-- `DESCRIPTORS`: the blocks, each a list of columns -/
  descriptors : Option (List (List Desc))
  /-- `DESCRIPTOR_TYPES` -/
  types : Option (List Int)

/-- A frame without channels (visual-frame.cc:9-11). -/
def Frame.empty : Frame := ⟨fun _ => none, none, none⟩

/-- Replace the data of a channel (visual-frame.cc:236-440). -/
def Frame.setChan (f : Frame) (c : Chan) (d : List Int) : Frame :=
  { f with chan := fun x => if x = c then some d else f.chan x }

/-- `get_…_Data` (channel-declaration.h:26-38). -/
def get {α : Type} : Option α → Outcome α
  | some d => .ok d
  | none => .abort

/-! ### `discardUntrackedObservations` -/

/-- The indices with a negative track id (visual-frame.cc:579-583). -/
def untracked (ids : List Int) : List Nat :=
  (ids.zipIdx.filter (fun p => decide (p.1 < 0))).map Prod.snd

/-- `if (hasX()) eraseIndicesFromContainer(*discarded_indices, original_count, getXMutable())`
(visual-frame.cc:588-608). -/
def eraseChan (junk : Int) (idxs : List Nat) (count : Nat) (f : Frame) (c : Chan) : Outcome Frame :=
  match f.chan c with
  | none => .ok f
  | some d => do
    let d' ← eigenErase junk idxs count d
    .ok (f.setChan c d')

/-- The same for a list of channels in order (visual-frame.cc:585-608). -/
def eraseChans (junk : Int) (idxs : List Nat) (count : Nat) : List Chan → Frame → Outcome Frame
  | [], f => .ok f
  | c :: cs, f => do
    let f ← eraseChan junk idxs count f c
    eraseChans junk idxs count cs f

/-- `if (hasDescriptors())` … (visual-frame.cc:609-614): the first block only (`getDescriptorsMutable(0)`,
visual-frame.cc:155-160). -/
def eraseDescriptors (junk : Desc) (idxs : List Nat) (count : Nat) (f : Frame) : Outcome Frame :=
  match f.descriptors with
  | none => .ok f
  | some blocks =>
    match blocks[0]? with
    | none => .abort
    | some b => do
      let b' ← eigenErase junk idxs count b
      .ok { f with descriptors := some (blocks.set 0 b') }

/-- `discardUntrackedObservations` (visual-frame.cc:572-617): the new frame and the discarded indices. -/
def discardUntracked (junk : Int) (junkD : Desc) (f : Frame) : Outcome (Frame × List Nat) := do
  let ids ← get (f.chan .trackIds)
  let idxs := untracked ids
  if idxs = [] then .ok (f, [])
  else do
    let f ← eraseChans junk idxs ids.length
      [.measurements, .uncertainties, .orientations, .scores, .scales] f
    let f ← eraseDescriptors junkD idxs ids.length f
    let f ← eraseChan junk idxs ids.length f .trackIds
    .ok (f, idxs)

/-! ### Descriptor blocks -/

/-- `getDescriptorBlockForIndex` (visual-frame.cc:216-227): the block and the index inside of it. -/
def blockForIndex : List (List Desc) → Nat → Outcome (Nat × Nat)
  | [], _ => .abort
  | b :: bs, i =>
    if i < b.length then .ok (0, i)
    else (blockForIndex bs (i - b.length)).bind fun r => .ok (r.1 + 1, r.2)

/-- `getDescriptor` (visual-frame.cc:229-234). -/
def getDescriptor (f : Frame) (i : Nat) : Outcome Desc := do
  let blocks ← get f.descriptors
  let r ← blockForIndex blocks i
  match blocks[r.1]? with
  | none => .ub
  | some b =>
    match b[r.2]? with
    | none => .ub
    | some d => .ok d

/-- `getDescriptorBlockType` (visual-frame.cc:832-837). -/
def blockType (f : Frame) (b : Nat) : Outcome Int := do
  let ts ← get f.types
  match ts[b]? with
  | none => .abort
  | some t => .ok t

/-- `getDescriptorType` (visual-frame.cc:825-830). -/
def getDescriptorType (f : Frame) (i : Nat) : Outcome Int := do
  let blocks ← get f.descriptors
  let r ← blockForIndex blocks i
  blockType f r.1

/-- `getNumDescriptors` (visual-frame.cc:766-779). -/
def numDescriptors (f : Frame) : Nat :=
  match f.descriptors with
  | none => 0
  | some blocks => blocks.foldl (fun n b => n + b.length) 0

/-- `hasDescriptorType` (visual-frame.cc:794-807). -/
def hasDescriptorType (f : Frame) (t : Int) : Outcome Bool :=
  match f.descriptors with
  | none => .ok false
  | some _ => do
    let ts ← get f.types
    .ok (ts.any (fun x => decide (x = t)))

/-- `getDescriptorTypeBlock` (visual-frame.cc:839-850). -/
def typeBlock (f : Frame) (t : Int) : Outcome Nat := do
  let ts ← get f.types
  match ts.findIdx? (fun x => decide (x = t)) with
  | none => .abort
  | some b => .ok b

/-- The sum of the sizes of the blocks before `b` (visual-frame.cc:877-879). -/
def startLoop (blocks : List (List Desc)) (b : Nat) : Nat :=
  (blocks.take b).foldl (fun n b => n + b.length) 0

/-- `getDescriptorBlockTypeStartAndSize` (visual-frame.cc:868-882); indexing beyond the blocks is undefined. -/
def startAndSize (f : Frame) (t : Int) : Outcome (Nat × Nat) := do
  let blocks ← get f.descriptors
  let b ← typeBlock f t
  match blocks[b]? with
  | none => .ub
  | some blk => .ok (startLoop blocks b, blk.length)

/-- `getNumKeypointMeasurementsOfType` (visual-frame.cc:852-866). -/
def numOfType (f : Frame) (t : Int) : Outcome Nat :=
  match f.chan .measurements with
  | none => .ok 0
  | some _ => do
    let blocks ← get f.descriptors
    let has ← hasDescriptorType f t
    if has then do
      let b ← typeBlock f t
      match blocks[b]? with
      | none => .abort
      | some blk => .ok blk.length
    else .ok 0

/-- `getKeypointMeasurementsOfType` and the same for the other channels (visual-frame.cc:884-966). -/
def chanOfType (f : Frame) (c : Chan) (t : Int) : Outcome (List Int) := do
  let r ← startAndSize f t
  let d ← get (f.chan c)
  Outcome.check (decide (r.1 + r.2 ≤ d.length))
  .ok ((d.drop r.1).take r.2)

/-- `getKeypointMeasurementOfType` and the same for the other channels (visual-frame.cc:968-1063). -/
def entryOfType (f : Frame) (c : Chan) (i : Nat) (t : Int) : Outcome Int := do
  let r ← startAndSize f t
  Outcome.check (decide (i < r.2))
  let d ← get (f.chan c)
  Outcome.check (decide (r.1 + r.2 ≤ d.length))
  match d[r.1 + i]? with
  | none => .ub
  | some x => .ok x

/-- The channels `DESCRIPTORS` and `DESCRIPTOR_TYPES` after being added if `DESCRIPTORS` is missing
(visual-frame.cc:309-312); adding existing types aborts. -/
def withDescriptors (f : Frame) : Outcome (List (List Desc) × List Int) :=
  match f.descriptors, f.types with
  | none, none => .ok ([], [])
  | none, some _ => .abort
  | some bs, some ts => .ok (bs, ts)
  | some _, none => .abort

/-- `setDescriptors` (visual-frame.cc:306-328). -/
def setDescriptors (f : Frame) (block : List Desc) (index : Nat) (t : Int) : Outcome Frame := do
  let r ← withDescriptors f
  Outcome.check (decide (r.1.length = r.2.length))
  if r.1.length = 0 then .ok { f with descriptors := some [block], types := some [t] }
  else if index < r.1.length then
    .ok { f with descriptors := some (r.1.set index block), types := some (r.2.set index t) }
  else .abort

/-- `swapDescriptors` (visual-frame.cc:409-430): the new frame, and the block and type that were there before. -/
def swapDescriptors (f : Frame) (block : List Desc) (index : Nat) (t junk : Int) :
    Outcome (Frame × List Desc × Int) := do
  let r ← withDescriptors f
  Outcome.check (decide (r.1.length = r.2.length))
  let bs := if r.1.length = 0 then [[]] else r.1
  let ts := if r.1.length = 0 then [junk] else r.2
  match bs[index]?, ts[index]? with
  | some b, some t' =>
    .ok ({ f with descriptors := some (bs.set index block), types := some (ts.set index t) }, b, t')
  | _, _ => .abort

/-- `extendDescriptors` (visual-frame.cc:733-750). -/
def extendDescriptors (f : Frame) (block : List Desc) (t : Int) : Outcome Frame := do
  let r ← withDescriptors f
  Outcome.check (decide (r.1.length = r.2.length))
  .ok { f with descriptors := some (r.1 ++ [block]), types := some (r.2 ++ [t]) }

/-- `deserializeDescriptorsFromString` (visual-frame.cc:787-792), given the blocks the string encodes. -/
def deserializeDescriptors (f : Frame) (blocks : List (List Desc)) : Frame :=
  { f with descriptors := some blocks }

/-! ### Extending -/

/-- `extendKeypointMeasurements` (visual-frame.cc:619-630). -/
def extendMeasurements (f : Frame) (new : List Int) : Frame :=
  f.setChan .measurements ((f.chan .measurements).getD [] ++ new)

/-- `getNumKeypointMeasurements` (visual-frame.h:109-111). -/
def numMeasurements (f : Frame) : Nat :=
  match f.chan .measurements with
  | some d => d.length
  | none => 0

/-- `extendDataVector` (visual-frame.cc:632-650). -/
def extendData (data new : List Int) (numKeypoints : Nat) (dflt : Int) : Outcome (List Int) :=
  if numKeypoints ≥ data.length + new.length then
    .ok (data ++ List.replicate (numKeypoints - (data.length + new.length)) dflt ++ new)
  else .abort

/-- `extendKeypointMeasurementUncertainties`, …, `extendTrackIds` (visual-frame.cc:652-731, 755-764). -/
def extendChan (f : Frame) (c : Chan) (new : List Int) (dflt : Int) : Outcome Frame := do
  let d ← extendData ((f.chan c).getD []) new (numMeasurements f) dflt
  .ok (f.setChan c d)

/-- `clearKeypointChannels` (visual-frame.cc:441-454). -/
def clearKeypointChannels (f : Frame) : Outcome Frame :=
  let f := ((((((f.setChan .measurements []).setChan .trackIds []).setChan .uncertainties []).setChan
    .orientations []).setChan .scores []).setChan .scales [])
  setDescriptors f [] 0 0

end Verif.VisualFrame
