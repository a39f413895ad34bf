import Verif.VisualFrame.Model

/-!
# Drawing keypoints and matches

Model of `aslam_cv_visualization/src/basic-visualization.cc`. The keypoint data of a frame is that of
`Verif.VisualFrame.Model`, where a keypoint is an integer standing for its coordinates; `pos` gives its coordinates
converted to `int`. An image is the picture it began with and the shapes drawn on it. The pointers given are not null.
-/

namespace Verif.Visualization

open Verif (Outcome)
open Verif.VisualFrame

/-- What is drawn, basic-visualization.cc:21-23, 52-55 and 56-59. Colours are in the order blue, green, red. -/
inductive Shape where
  | circle (centre : Int × Int) (radius : Nat) (colour : Nat × Nat × Nat)
  | line (a b : Int × Int) (colour : Nat × Nat × Nat)
  deriving DecidableEq, Repr

/-- An image, basic-visualization.cc:15 and 34: `base` stands for the pixels before anything is drawn. -/
structure Canvas where
  base : Nat
  shapes : List Shape
  deriving DecidableEq, Repr

/-- A frame with its raw image, basic-visualization.cc:15 and 34: the flag tells that it is not empty and has one channel. -/
structure View where
  frame : Frame
  raw : Option (Nat × Bool)

/-- `cvtColor(frame.getRawImage(), *image, COLOR_GRAY2BGR)`, basic-visualization.cc:15 and 34: without a raw image the
process aborts (channel-declaration.h:26-38), and OpenCV throws if it cannot convert the image. -/
def background (v : View) : Outcome Canvas :=
  match v.raw with
  | none => .abort
  | some (b, true) => .ok ⟨b, []⟩
  | some (_, false) => .exc

/-- `drawKeypoints`, basic-visualization.cc:8-25. -/
def drawKeypoints (pos : Int → Int × Int) (v : View) (image : Canvas) (t : Int) : Outcome Canvas :=
  (numOfType v.frame t).bind fun n =>
    if n = 0 then .ok image
    else
      (background v).bind fun c =>
        (chanOfType v.frame .measurements t).bind fun ks =>
          .ok { c with shapes := c.shapes ++ ks.map fun k => .circle (pos k) 1 (0, 255, 255) }

/-- `CHECK_LT` and the access to a column, basic-visualization.cc:46-50 and 54-58: negative indices pass the check. -/
def column (ks : List Int) (i : Int) : Outcome Int :=
  if i < ks.length then
    if 0 ≤ i then
      match ks[i.toNat]? with
      | some k => .ok k
      | none => .ub
    else .ub
  else .abort

/-- The loop over the matches, basic-visualization.cc:45-60. Both checks come before the first access: an index of the
second frame that is too large aborts even if the first index is negative. -/
def drawLoop (pos : Int → Int × Int) (kp1 k : List Int) : List (Int × Int) → Outcome (List Shape)
  | [] => .ok []
  | m :: ms =>
    if m.1 < kp1.length ∧ m.2 < k.length then
      (column kp1 m.1).bind fun a =>
        (column k m.2).bind fun b =>
          (drawLoop pos kp1 k ms).bind fun r =>
            .ok (.circle (pos a) 4 (255, 255, 0) :: .line (pos b) (pos a) (255, 0, 255) :: r)
    else .abort

/-- `drawKeypointMatches`, basic-visualization.cc:27-61. -/
def drawMatches (pos : Int → Int × Int) (vkp1 vk : View) (ms : List (Int × Int)) (t : Int) : Outcome Canvas :=
  (background vkp1).bind fun c =>
    (chanOfType vk.frame .measurements t).bind fun k =>
      (chanOfType vkp1.frame .measurements t).bind fun kp1 =>
        (drawLoop pos kp1 k ms).bind fun r => .ok { c with shapes := c.shapes ++ r }

end Verif.Visualization
