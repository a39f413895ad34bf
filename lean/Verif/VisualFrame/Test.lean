import Verif.NPipeline.Make
import Verif.VisualFrame.Model

/-!
# Frames and n-frames for tests

Model of `VisualFrame::createEmptyTestVisualFrame` and `VisualNFrame::createEmptyTestVisualNFrame`
(`aslam_cv_frames/src/visual-frame.cc`, `.../visual-nframe.cc`): the objects as in `Verif.VisualFrame.Copy`, and separately the
channels of a frame as in `Verif.VisualFrame.Model`.
-/

namespace Verif.VisualFrame.Test

open Verif (Outcome)
open Verif.VisualFrame.Copy (World)
open Verif.NPipeline.Make (call)

/-- The channels of the frame (visual-frame.cc:560-565); `junk` is the type of descriptors that is not initialised and
swapped out. -/
def testChannels (junk : Int) : Outcome Frame := do
  let r ← swapDescriptors ((Frame.empty.setChan .measurements []).setChan .uncertainties []) [] 0 0 junk
  .ok r.1

/-- The frame as an object (visual-frame.cc:557-559, 566-569), by its number. -/
def testFrame (cams : Nat → List Nat) (camera : Option Nat) (timestamp : Int) (id : Nat) (w : World) : Outcome (World × Nat) :=
  call cams w (.frame .new) >>= fun w1 => call cams w1 (.frame (.setCam w.frames.length camera)) >>= fun w2 =>
    call cams w2 (.frame (.setTs w.frames.length timestamp)) >>= fun w3 =>
    call cams w3 (.frame (.setId w.frames.length id)) >>= fun w4 => .ok (w4, w.frames.length)

/-- The loop over the frames (visual-nframe.cc:228-233) from `i` on, for `n` of them. -/
def testLoop (cams : Nat → List Nat) (r k : Nat) (timestamp : Int) (gen : Nat → Nat) : Nat → Nat → World → Outcome World
  | 0, _, w => .ok w
  | n + 1, i, w =>
    testFrame cams ((cams r)[i]?) timestamp (gen i) w >>= fun x =>
    call cams x.1 (.setFrame k i x.2) >>= fun w' => testLoop cams r k timestamp gen n (i + 1) w'

/-- `createEmptyTestVisualNFrame` (visual-nframe.cc:220-235): the n-frame is the last one. -/
def testNFrame (cams : Nat → List Nat) (r : Option Nat) (timestamp : Int) (id : Nat) (gen : Nat → Nat) (w : World) :
    Outcome World :=
  match r with
  | none => .abort
  | some r =>
    call cams w (.newN id (some r) 0) >>= fun w' => testLoop cams r w.nframes.length timestamp gen (cams r).length 0 w'

end Verif.VisualFrame.Test
