import Verif.VisualFrame.Copy

/-!
# Questions about all frames of an n-frame, and calls on all of them

`aslam_cv_frames/src/visual-nframe.cc`, on the objects of `Verif.VisualFrame.Copy`.
-/

namespace Verif.VisualFrame.Copy

open Verif (Outcome)

/-- The name of the channel of the raw image (visual-frame-channels.h, `DECLARE_CHANNEL(RAW_IMAGE, cv::Mat)`)
(channel-definitions.h:42). -/
def rawImage : String := "RAW_IMAGE"

/-- `areAllFramesSet` (visual-nframe.cc:153-160). -/
def areAllFramesSet : List (Option Nat) → Bool
  | [] => true
  | none :: _ => false
  | some _ :: ps => areAllFramesSet ps

/-- `isFrameSet` (visual-nframe.cc:148-151). -/
def isFrameSet (n : NF) (i : Nat) : Outcome Bool :=
  match n.frames[i]? with
  | some p => .ok p.isSome
  | none => .abort

/-- `hasRawImagesInAllFrames` (visual-nframe.cc:237-245). -/
def hasRawImages (w : World) : List (Option Nat) → Outcome Bool
  | [] => .ok true
  | none :: _ => .abort
  | some p :: ps =>
    match fstep w (.chan p (.has rawImage)) with
    | some (.ok (_, .chan (.bool b))) => if b then hasRawImages w ps else .ok false
    | _ => .ub

/-- `releaseRawImagesOfAllFrames` (visual-nframe.cc:247-252). -/
def releaseRawImages : List (Option Nat) → World → Outcome World
  | [], w => .ok w
  | none :: _, _ => .abort
  | some p :: ps, w =>
    match fstep w (.chan p (.remove rawImage)) with
    | some (.ok (w', _)) => releaseRawImages ps w'
    | some .abort => .abort
    | _ => .ub

end Verif.VisualFrame.Copy
