import Verif.Base.Outcome
import Mathlib.Data.List.Basic
import Mathlib.Algebra.Order.Group.Abs
import Mathlib.Algebra.Order.Group.Int

/-!
# N-camera pipeline

Model of `aslam_cv_pipeline/src/visual-npipeline.cc` and
`aslam_cv_pipeline/include/aslam/pipeline/visual-npipeline.h`.

* The tracking of the queues happens under `mutex_`: each critical section is one step; the order of the
  steps is the order in which the mutex is taken (the image processing of `work` before line visual-npipeline.cc:224 only
  yields the frame).
* `std::map` is a list sorted by key.  Time differences do not overflow (`int64_t` values are integers).
* A frame is its timestamp and a label standing for its data.  Frames always carry the camera of the rig
  (`CHECK`s of the constructor, visual-npipeline.cc:37-45), so the camera `CHECK` of `setFrame` (visual-nframe.cc:137-139)
  is not modelled.
-/

namespace Verif.NPipeline

open Verif (Outcome)

/-- A processed image (`VisualFrame`): timestamp and data (set at visual-npipeline.cc:267-275). -/
structure Frame where
  ts : Int
  label : Nat
  deriving DecidableEq, Repr

/-- `VisualNFrame`: an identity and one slot per camera (visual-nframe.cc:134-160). -/
structure NFrame where
  id : Nat
  frames : List (Option Frame)
  deriving DecidableEq, Repr

/-- `areAllFramesSet` (visual-nframe.cc:153-160). -/
def NFrame.complete (n : NFrame) : Bool := n.frames.all Option.isSome

/-- Element of `TimestampVisualNFrameMap` (visual-npipeline.h:191-195). -/
abbrev Entry := Int × NFrame

/-- The pipeline: `processing_`, `completed_` (visual-npipeline.h:191-195) and a source of identities. -/
structure State where
  processing : List Entry
  completed : List Entry
  nextId : Nat
  deriving DecidableEq, Repr

/-- Configuration: number of cameras and `timestamp_tolerance_ns_` (visual-npipeline.h:180, 206). -/
structure Config where
  cams : Nat
  tol : Int

/-- Number of entries with a smaller key: position of `lower_bound` (visual-npipeline.cc:232-233). -/
def lowerBound (p : List Entry) (t : Int) : Nat := (p.takeWhile (fun e => decide (e.1 < t))).length

/-- The search for the closest n-frame (visual-npipeline.cc:232-249): position and time difference; `none` if there is
none. -/
def nearest (p : List Entry) (t : Int) : Option (Nat × Int) :=
  let i := lowerBound p t - 1
  match p[i]? with
  | none => none
  | some e =>
    match p[i + 1]? with
    | some e' => if |e'.1 - t| < |e.1 - t| then some (i + 1, |e'.1 - t|) else some (i, |e.1 - t|)
    | none => some (i, |e.1 - t|)

/-- `proc_it->second->setFrame(camera_index, frame)` (visual-npipeline.cc:267-275); an existing frame is overwritten. -/
def setFrameAt (p : List Entry) (i : Nat) (cam : Nat) (f : Frame) : Outcome (List Entry) :=
  match p[i]? with
  | none => .ub
  | some e =>
    if cam < e.2.frames.length then
      .ok (p.set i (e.1, { e.2 with frames := e.2.frames.set cam (some f) }))
    else .abort

/-- Creation of an n-frame at the time of the frame (visual-npipeline.cc:256-264). -/
def insertNew (cfg : Config) (s : State) (t : Int) : Outcome (State × Nat) :=
  let i := lowerBound s.processing t
  if (s.processing[i]?).map (fun e => e.1) = some t then .abort
  else .ok ({ s with
      processing := s.processing.take i ++ (t, ⟨s.nextId, List.replicate cfg.cams none⟩) :: s.processing.drop i
      nextId := s.nextId + 1 }, i)

/-- The n-frame for a frame of time `t` (visual-npipeline.cc:226-264): the closest one within the tolerance or a new
one. -/
def findOrCreate (cfg : Config) (s : State) (t : Int) : Outcome (State × Nat) :=
  match nearest s.processing t with
  | some (i, d) => if d > cfg.tol then insertNew cfg s t else .ok (s, i)
  | none => insertNew cfg s t

/-- Assignment of a frame to an n-frame (visual-npipeline.cc:226-275). -/
def place (cfg : Config) (s : State) (cam : Nat) (f : Frame) : Outcome State := do
  let r ← findOrCreate cfg s f.ts
  let p ← setFrameAt r.1.processing r.2 cam f
  .ok { r.1 with processing := p }

/-- Search for two consecutive complete n-frames (visual-npipeline.cc:285-302): index of the second one. -/
def runEnd : List Entry → Nat → Nat → Option Nat
  | [], _, _ => none
  | e :: es, idx, c =>
    let c' := if e.2.complete then c + 1 else 0
    if c' ≥ 2 then some idx else runEnd es (idx + 1) c'

/-- Number of n-frames the frame-drop clean-up deletes (visual-npipeline.cc:282-308). -/
def deleteCount (p : List Entry) : Nat :=
  if p.length > 3 then
    match runEnd p 0 0 with
    | none => 0
    | some idx =>
      let upto : Int := (idx : Int) - 2
      if upto ≥ 0 then (upto + 1).toNat else 0
  else 0

/-- `completed_.insert` (visual-npipeline.cc:322): nothing happens if the key exists. -/
def insertCompleted (c : List Entry) (e : Entry) : List Entry :=
  let i := lowerBound c e.1
  if (c[i]?).map (fun x => x.1) = some e.1 then c else c.take i ++ e :: c.drop i

/-- Moving completed n-frames (visual-npipeline.cc:317-330): the remaining `processing_` and the new `completed_`. -/
def moveCompleted : List Entry → List Entry → List Entry × List Entry
  | [], c => ([], c)
  | e :: es, c => if e.2.complete then moveCompleted es (insertCompleted c e) else (e :: es, c)

/-- The part of `work` after the assignment (visual-npipeline.cc:277-330). -/
def finish (s : State) : State :=
  let p := s.processing.drop (deleteCount s.processing)
  let r := moveCompleted p s.completed
  { s with processing := r.1, completed := r.2 }

/-- `work` (visual-npipeline.cc:215-332).  `camera_index == pipelines_.size()` passes the `CHECK_LE` and indexes out of
range. -/
def work (cfg : Config) (s : State) (cam : Nat) (f : Frame) : Outcome State :=
  if cam > cfg.cams then .abort
  else if cam = cfg.cams then .ub
  else do
    let s1 ← place cfg s cam f
    .ok (finish s1)

/-- `getNextImpl` (visual-npipeline.cc:130-142), used by `getNext` and `getNextBlocking`. -/
def getNext (s : State) : State × Option Entry :=
  match s.completed with
  | [] => (s, none)
  | e :: c => ({ s with completed := c }, some e)

/-- `getLatestAndClear` (visual-npipeline.cc:150-168) and the non-waiting part of `getLatestAndClearBlocking`
(visual-npipeline.cc:182-197). -/
def getLatestAndClear (s : State) : State × Option Entry :=
  match s.completed.getLast? with
  | none => (s, none)
  | some e => ({ s with
      completed := []
      processing := s.processing.dropWhile (fun x => decide (x.1 ≤ e.1)) }, some e)

/-- The queue part of `processImageNonBlockingDroppingOldestNFrameIfFull` (visual-npipeline.cc:82-92). -/
def dropOldest (s : State) (maxSize : Nat) : Outcome (State × Bool) :=
  if maxSize ≥ 1 then
    if s.completed.length ≥ maxSize then .ok ({ s with completed := s.completed.drop 1 }, true)
    else .ok (s, false)
  else .abort

/-- What happens to the pipeline, in the order in which the mutex is taken (visual-npipeline.cc:79-92, 125-199,
215-332). -/
inductive Op where
  | work (cam : Nat) (f : Frame)
  | getNext
  | getLatest
  | dropOldest (maxSize : Nat)

/-- The pipeline, the n-frames handed to callers so far, and the processed images with their cameras
(visual-npipeline.h:193-195). -/
structure Run where
  s : State
  delivered : List Entry
  images : List (Nat × Frame)

/-- One step (visual-npipeline.cc:79-92, 125-199, 215-332). -/
def step (cfg : Config) (r : Run) : Op → Outcome Run
  | .work cam f => do
    let s ← work cfg r.s cam f
    .ok { r with s := s, images := r.images ++ [(cam, f)] }
  | .getNext =>
    let x := getNext r.s
    .ok { r with s := x.1, delivered := r.delivered ++ x.2.toList }
  | .getLatest =>
    let x := getLatestAndClear r.s
    .ok { r with s := x.1, delivered := r.delivered ++ x.2.toList }
  | .dropOldest n => do
    let x ← dropOldest r.s n
    .ok { r with s := x.1 }

/-- The pipeline after construction (visual-npipeline.cc:17-48). -/
def Run.init : Run := ⟨⟨[], [], 0⟩, [], []⟩

/-- States after any sequence of steps (visual-npipeline.cc:17-332). -/
inductive Reachable (cfg : Config) : Run → Prop
  | init : Reachable cfg Run.init
  | step {r r' : Run} {op : Op} : Reachable cfg r → step cfg r op = .ok r' → Reachable cfg r'

end Verif.NPipeline
