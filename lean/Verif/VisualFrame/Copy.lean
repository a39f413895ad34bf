import Verif.Channels.Model

/-!
# Frames and n-frames as objects: creating, copying, modifying, comparing

Model of the object level of `aslam_cv_frames/src/visual-frame.cc` and `.../visual-nframe.cc`.

The heap is explicit: frame objects are indices (what a `shared_ptr<VisualFrame>` points to), each with its
channel group in a `Channels.Store`; cameras and rigs are opaque pointers.  Ids are numbers.
-/

namespace Verif.VisualFrame.Copy

open Verif (Outcome)
open Verif.Channels (Store Group Val Ty)

/-- A `VisualFrame` (visual-frame.h:504-519): `group` is its `channels_`. -/
structure VF where
  ts : Int
  id : Nat
  cam : Option Nat
  raw : Option Nat
  group : Nat
  valid : Bool
  deriving DecidableEq, Repr

/-- A `VisualNFrame` (visual-nframe.h): its frames are pointers (lines 173-179). -/
structure NF where
  id : Nat
  rig : Option Nat
  frames : List (Option Nat)
  deriving DecidableEq, Repr

/-- The program: all channel groups, frames and n-frames (visual-frame.h:504-519, visual-nframe.cc:18-54). -/
structure World where
  store : Store
  frames : List VF
  nframes : List NF
  deriving DecidableEq, Repr

/-- The program before any frame exists (visual-frame.cc:9-11). -/
def World.empty : World := ⟨Store.empty, [], []⟩

/-- Calls on one channel of a frame (channel-declaration.h:26-94). -/
inductive ChOp where
  | add (n : String) (t : Ty)
  | get (n : String) (t : Ty)
  | set (n : String) (t : Ty) (v : Val)
  | has (n : String)
  | remove (n : String)
  deriving DecidableEq, Repr

/-- The call on the channel group (channel-declaration.h:26-94). -/
def ChOp.toOp (g : Nat) : ChOp → Channels.Op
  | .add n t => .add g n t
  | .get n t => .get g n t
  | .set n t v => .set g n t v
  | .has n => .has g n
  | .remove n => .remove g n

/-- Calls on frames (visual-frame.cc:9-26, 460-470, visual-frame.h:359-375). -/
inductive FOp where
  /-- `VisualFrame()` (visual-frame.cc:9-11) -/
  | new
  /-- `VisualFrame(const VisualFrame&)` (visual-frame.cc:13-15) -/
  | copy (src : Nat)
  /-- `operator=` (visual-frame.cc:17-26) -/
  | assign (dst src : Nat)
  /-- `setTimestampNanoseconds` (visual-frame.h:365-367) -/
  | setTs (f : Nat) (t : Int)
  /-- `setId` (visual-frame.h:359) -/
  | setId (f : Nat) (i : Nat)
  /-- `setCameraGeometry` (visual-frame.cc:460-462) -/
  | setCam (f : Nat) (c : Option Nat)
  /-- `setRawCameraGeometry` (visual-frame.cc:468-470) -/
  | setRaw (f : Nat) (c : Option Nat)
  /-- `invalidate` (visual-frame.h:375) -/
  | invalidate (f : Nat)
  /-- any access to a channel -/
  | chan (f : Nat) (c : ChOp)
  deriving DecidableEq, Repr

/-- Results of calls on frames (visual-frame.cc:9-41). -/
inductive Out where
  | unit
  | frame (f : Nat)
  | chan (o : Channels.Out)
  deriving DecidableEq, Repr

/-- `aslam::time::getInvalidTime()` (time.h) (lines 66-68). -/
def invalidTime : Int := -(2 ^ 63)

/-- A frame with the members of `v` and a clone of its channels (visual-frame.cc:18-24); the new world and the new
member values.  `cloneChannelGroup` returns a new group whose pointers are moved into `channels_`. -/
def cloneFrame (w : World) (v : VF) : Option (Outcome (World × VF)) :=
  match Channels.step w.store (.clone v.group) with
  | none => none
  | some (.ok (s, .group g)) => some (.ok ({ w with store := s }, { v with group := g }))
  | some (.ok _) => none
  | some .abort => some .abort
  | some .ub => some .ub
  | some .exc => some .exc

/-- Change the members of frame `f` (visual-frame.cc:460-470, visual-frame.h:359-375). -/
def modify (w : World) (f : Nat) (h : VF → VF) : Option (Outcome (World × Out)) :=
  match w.frames[f]? with
  | none => none
  | some v => some (.ok ({ w with frames := w.frames.set f (h v) }, .unit))

/-- One call on frames; `none` if it names an object that does not exist
(visual-frame.cc:9-26, 460-470, visual-frame.h:359-375). -/
def fstep (w : World) : FOp → Option (Outcome (World × Out))
  | .new => some (.ok ({ w with
      store := { w.store with groups := w.store.groups ++ [[]] }
      frames := w.frames ++ [⟨invalidTime, 0, none, none, w.store.groups.length, true⟩] },
      .frame w.frames.length))
  | .copy src =>
    match w.frames[src]? with
    | none => none
    | some v =>
      match cloneFrame w v with
      | none => none
      | some r => some (r.bind fun p =>
          .ok ({ p.1 with frames := p.1.frames ++ [p.2] }, .frame w.frames.length))
  | .assign dst src =>
    match w.frames[dst]?, w.frames[src]? with
    | some _, some v =>
      match cloneFrame w v with
      | none => none
      | some r => some (r.bind fun p => .ok ({ p.1 with frames := p.1.frames.set dst p.2 }, .unit))
    | _, _ => none
  | .setTs f t => modify w f (fun v => { v with ts := t })
  | .setId f i => modify w f (fun v => { v with id := i })
  | .setCam f c => modify w f (fun v => { v with cam := c })
  | .setRaw f c => modify w f (fun v => { v with raw := c })
  | .invalidate f => modify w f (fun v => { v with valid := false })
  | .chan f c =>
    match w.frames[f]? with
    | none => none
    | some v =>
      match Channels.step w.store (c.toOp v.group) with
      | none => none
      | some r => some (r.bind fun p => .ok ({ w with store := p.1 }, .chan p.2))

/-- The camera part of `operator==` (visual-frame.cc:32-38); `camEq` is the comparison of two camera objects. -/
def camSame (camEq : Nat → Nat → Bool) : Option Nat → Option Nat → Bool
  | some a, some b => camEq a b
  | none, none => true
  | _, _ => false

/-- `VisualFrame::operator==` (visual-frame.cc:28-41). -/
def frameEq (camEq : Nat → Nat → Bool) (w : World) (f g : Nat) : Outcome Bool :=
  match w.frames[f]?, w.frames[g]? with
  | some v, some u =>
    match w.store.groups[v.group]?, w.store.groups[u.group]? with
    | some a, some b => do
      let same ← Channels.isChannelGroupEqual w.store (decide (v.group = u.group)) a b
      .ok (decide (v.ts = u.ts) && same && camSame camEq v.cam u.cam && decide (v.valid = u.valid))
    | _, _ => .ub
  | _, _ => .ub

/-! ### N-frames -/

/-- Calls on n-frames, and calls on frames (visual-nframe.cc:18-83, 134-146). -/
inductive NOp where
  | frame (op : FOp)
  /-- constructors (visual-nframe.cc:18-35): `n` frames, or one per camera of the rig, not set -/
  | newN (id : Nat) (rig : Option Nat) (n : Nat)
  /-- copy constructor (visual-nframe.cc:37-39) -/
  | copyN (src : Nat)
  /-- `operator=` (visual-nframe.cc:41-54) -/
  | assignN (dst src : Nat)
  /-- `setId` (visual-nframe.h:70) -/
  | setIdN (k id : Nat)
  /-- `setFrame` (visual-nframe.cc:134-141) -/
  | setFrame (k i f : Nat)
  /-- `unSetFrame` (visual-nframe.cc:143-146) -/
  | unSetFrame (k i : Nat)
  /-- `setNCameras` (visual-nframe.cc:69-83) -/
  | setRig (k rig : Nat)
  deriving DecidableEq, Repr

/-- The loop of `operator=` (visual-nframe.cc:46-52): a new frame per frame that is set. -/
def copyFrames : List (Option Nat) → World → Option (Outcome (World × List (Option Nat)))
  | [], w => some (.ok (w, []))
  | none :: ps, w =>
    match copyFrames ps w with
    | none => none
    | some r => some (r.bind fun q => .ok (q.1, none :: q.2))
  | some p :: ps, w =>
    match fstep w (.copy p) with
    | some (.ok (w1, _)) =>
      match copyFrames ps w1 with
      | none => none
      | some r => some (r.bind fun q => .ok (q.1, some w.frames.length :: q.2))
    | some .abort => some .abort
    | some .ub => some .ub
    | some .exc => some .exc
    | none => none

/-- The loop of `setNCameras` (visual-nframe.cc:76-82). -/
def assignCams (cams : List Nat) : Nat → List (Option Nat) → List VF → List VF
  | _, [], fs => fs
  | i, none :: ps, fs => assignCams cams (i + 1) ps fs
  | i, some p :: ps, fs =>
    match fs[p]? with
    | some v => assignCams cams (i + 1) ps (fs.set p { v with cam := cams[i]? })
    | none => assignCams cams (i + 1) ps fs

/-- Number of frames of a new n-frame (visual-nframe.cc:18-35). -/
def newCount (cams : Nat → List Nat) : Option Nat → Nat → Nat
  | none, n => n
  | some r, _ => (cams r).length

/-- One call; `cams` are the cameras of a rig.  An assignment of an n-frame to itself clears `frames_`
before the loop over the same vector (visual-nframe.cc:44-46), so that no frame is left. -/
def nstep (cams : Nat → List Nat) (w : World) : NOp → Option (Outcome World)
  | .frame op => (fstep w op).map fun r => r.bind fun p => .ok p.1
  | .newN id rig n => some (.ok { w with
      nframes := w.nframes ++ [⟨id, rig, List.replicate (newCount cams rig n) none⟩] })
  | .copyN src =>
    match w.nframes[src]? with
    | none => none
    | some k =>
      match copyFrames k.frames w with
      | none => none
      | some r => some (r.bind fun q => .ok { q.1 with nframes := q.1.nframes ++ [{ k with frames := q.2 }] })
  | .assignN dst src =>
    match w.nframes[dst]?, w.nframes[src]? with
    | some _, some k =>
      if dst = src then some (.ok { w with nframes := w.nframes.set dst { k with frames := [] } })
      else
        match copyFrames k.frames w with
        | none => none
        | some r => some (r.bind fun q =>
            .ok { q.1 with nframes := q.1.nframes.set dst { k with frames := q.2 } })
    | _, _ => none
  | .setIdN k id =>
    match w.nframes[k]? with
    | none => none
    | some n => some (.ok { w with nframes := w.nframes.set k { n with id := id } })
  | .setFrame k i f =>
    match w.nframes[k]?, w.frames[f]? with
    | some n, some v =>
      if i < n.frames.length then
        match n.rig with
        | none => some (.ok { w with nframes := w.nframes.set k { n with frames := n.frames.set i (some f) } })
        | some r =>
          if (cams r)[i]? = v.cam ∧ v.cam.isSome then
            some (.ok { w with nframes := w.nframes.set k { n with frames := n.frames.set i (some f) } })
          else some .abort
      else some .abort
    | _, _ => none
  | .unSetFrame k i =>
    match w.nframes[k]? with
    | none => none
    | some n =>
      if i < n.frames.length then
        some (.ok { w with nframes := w.nframes.set k { n with frames := n.frames.set i none } })
      else some .abort
  | .setRig k r =>
    match w.nframes[k]? with
    | none => none
    | some n =>
      if n.frames.length = (cams r).length then
        some (.ok { w with
          frames := assignCams (cams r) 0 n.frames w.frames
          nframes := w.nframes.set k { n with rig := some r } })
      else some .abort

/-- The loop of `operator==` (visual-nframe.cc:201-203): `CHECK_NOTNULL` on both frames; `same &= …` compares all. -/
def framesEq (camEq : Nat → Nat → Bool) (w : World) :
    List (Option Nat) → List (Option Nat) → Outcome Bool
  | some p :: ps, some q :: qs => do
    let a ← frameEq camEq w p q
    let b ← framesEq camEq w ps qs
    .ok (a && b)
  | [], [] => .ok true
  | _, _ => .abort

/-- `VisualNFrame::operator==` (visual-nframe.cc:195-206); `rigEq` compares two rig objects (predicates.h:6-16). -/
def nframeEq (camEq rigEq : Nat → Nat → Bool) (w : World) (k l : Nat) : Outcome Bool :=
  match w.nframes[k]?, w.nframes[l]? with
  | some a, some b =>
    if a.id = b.id ∧ camSame rigEq a.rig b.rig = true ∧ a.frames.length = b.frames.length then
      framesEq camEq w a.frames b.frames
    else .ok false
  | _, _ => .ub

/-! ### Timestamps of an n-frame -/

/-- `getMinTimestampNanoseconds` (visual-nframe.cc:168-180).  `cams` is the number of cameras of the rig, `none` without
rig; `ts i` is the timestamp of frame `i`, `none` if it is not set. -/
def minLoop (ts : List (Option Int)) : List Nat → Int → Outcome Int
  | [], acc => .ok acc
  | i :: is, acc =>
    match ts[i]? with
    | none => .abort
    | some none => minLoop ts is acc
    | some (some t) => minLoop ts is (if t < acc then t else acc)

/-- The loop of `getMaxTimestampNanoseconds` (visual-nframe.cc:184-190). -/
def maxLoop (ts : List (Option Int)) : List Nat → Int → Outcome Int
  | [], acc => .ok acc
  | i :: is, acc =>
    match ts[i]? with
    | none => .abort
    | some none => maxLoop ts is acc
    | some (some t) => maxLoop ts is (if acc < t then t else acc)

/-- `getMinTimestampNanoseconds` (visual-nframe.cc:168-180). -/
def getMin (cams : Option Nat) (ts : List (Option Int)) : Outcome Int :=
  match cams with
  | none => .abort
  | some n => do
    let m ← minLoop ts (List.range n) (2 ^ 63 - 1)
    Outcome.check (decide (m ≠ invalidTime))
    .ok m

/-- `getMaxTimestampNanoseconds` (visual-nframe.cc:182-193). -/
def getMax (cams : Option Nat) (ts : List (Option Int)) : Outcome Int :=
  match cams with
  | none => .abort
  | some n => do
    let m ← maxLoop ts (List.range n) invalidTime
    Outcome.check (decide (m ≠ invalidTime))
    .ok m

end Verif.VisualFrame.Copy
