import Verif.VisualFrame.Copy

/-!
# Making pipelines for several cameras

Model of the constructor of `VisualNPipeline` and of the part of `work` in which a frame finds its place in an n-frame,
with the objects of `Verif.VisualFrame.Copy` (`aslam_cv_pipeline/src/visual-npipeline.cc`): cameras and rigs are
pointers, and `cams r` are the cameras of the rig `r`, none of which is null (ncamera.cc:202-210).
-/

namespace Verif.NPipeline.Make

open Verif (Outcome)
open Verif.VisualFrame.Copy (World NF nstep fstep)

/-- The cameras of a `VisualPipeline` (visual-pipeline.h:104-111). -/
structure Pipe where
  input : Option Nat
  output : Option Nat
  deriving DecidableEq, Repr

/-- What the constructor of `VisualNPipeline` keeps (visual-npipeline.cc:23-27, 46-47). -/
structure NPipe where
  pipes : List Pipe
  input : Nat
  output : Nat
  tolerance : Int
  threads : Nat
  deriving DecidableEq, Repr

/-- The loop of the constructor (visual-npipeline.cc:37-45), from pipeline `k` on. -/
def checkPipes (cams : Nat → List Nat) (i o : Nat) : Nat → List (Option Pipe) → Outcome (List Pipe)
  | _, [] => .ok []
  | _, none :: _ => .abort
  | k, some p :: ps =>
    match (cams i)[k]?, (cams o)[k]? with
    | some a, some b =>
      if p.input = some a ∧ p.output = some b then checkPipes cams i o (k + 1) ps >>= fun qs => .ok (p :: qs)
      else .abort
    | _, _ => .abort

/-- The constructor (visual-npipeline.cc:17-48). -/
def make (cams : Nat → List Nat) (threads : Nat) (pipes : List (Option Pipe)) (input output : Option Nat)
    (tolerance : Int) : Outcome NPipe :=
  match input, output with
  | some i, some o =>
    if 0 < (cams i).length ∧ (cams i).length = (cams o).length ∧ (cams i).length = pipes.length ∧ 0 ≤ tolerance then
      checkPipes cams i o 0 pipes >>= fun ps => if 0 < threads then .ok ⟨ps, i, o, tolerance, threads⟩ else .abort
    else .abort
  | _, _ => .abort

/-- A call that returns nothing. -/
def call (cams : Nat → List Nat) (w : World) (op : VisualFrame.Copy.NOp) : Outcome World :=
  match nstep cams w op with
  | some r => r
  | none => .ub

/-- The frame that a pipeline makes (visual-pipeline.cc:34-40), by its number. -/
def frameOf (cams : Nat → List Nat) (p : Pipe) (timestamp : Int) (id : Nat) (w : World) : Outcome (World × Nat) :=
  call cams w (.frame .new) >>= fun w1 => call cams w1 (.frame (.setTs w.frames.length timestamp)) >>= fun w2 =>
    call cams w2 (.frame (.setRaw w.frames.length p.input)) >>= fun w3 =>
    call cams w3 (.frame (.setCam w.frames.length p.output)) >>= fun w4 =>
    call cams w4 (.frame (.setId w.frames.length id)) >>= fun w5 => .ok (w5, w.frames.length)

/-- `work` (visual-npipeline.cc:215-275) for the camera `index`: the n-frame is the one that was found, or a new one. -/
def work (cams : Nat → List Nat) (P : NPipe) (index : Nat) (timestamp : Int) (id : Nat) (found : Option Nat) (w : World) :
    Outcome World :=
  match P.pipes[index]? with
  | none => .ub
  | some p =>
    frameOf cams p timestamp id w >>= fun r =>
    match found with
    | some k => call cams r.1 (.setFrame k index r.2)
    | none => call cams r.1 (.newN 0 (some P.output) 0) >>= fun w' => call cams w' (.setFrame r.1.nframes.length index r.2)

/-- What a worker does: the index of the camera, the time of the image, the id of the frame, the n-frame if there was one
(visual-npipeline.cc:215-275). -/
structure Job where
  index : Nat
  timestamp : Int
  id : Nat
  found : Option Nat

/-- The workers one after the other (visual-npipeline.cc:224, the lock). -/
def workAll (cams : Nat → List Nat) (P : NPipe) : List Job → World → Outcome World
  | [], w => .ok w
  | j :: js, w => work cams P j.index j.timestamp j.id j.found w >>= fun w' => workAll cams P js w'

/-- `createTestVisualNPipeline` (visual-npipeline.cc:338-353) with the rig `r` that was made for it: null pipelines
(visual-pipeline-null.cc:8-9). -/
def testPipeline (cams : Nat → List Nat) (r n threads : Nat) (tolerance : Int) : Outcome NPipe :=
  if (cams r).length = n then
    make cams threads ((cams r).map fun c => some ⟨some c, some c⟩) (some r) (some r) tolerance
  else .abort

end Verif.NPipeline.Make
