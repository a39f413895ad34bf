import Verif.Base.Outcome
import Verif.Camera.Model
import Mathlib.Algebra.Order.Floor.Ring

/-!
# Undistortion

Model of `aslam_cv_common/include/aslam/common/undistort-helpers.h`, which the undistorters of
`aslam_cv_pipeline/include/aslam/pipeline/undistorter-mapped-inl.h` and
`aslam_cv_pipeline/src/undistorter-mapped.cc` are built with, in exact real arithmetic; rounding to `float` is left out.
-/

namespace Verif.Undistort

open Verif (Outcome)
open Verif.Camera (V2 V3)
open Verif.Distortion (Model)
open Classical

/-! ### Rectangles -/

/-- `cv::Rect_<float>` (undistort-helpers.h:27-33). -/
structure Rect where
  x : ℝ
  y : ℝ
  width : ℝ
  height : ℝ

/-- A sample: its column and row in the grid and the keypoint on the normalised image plane (undistort-helpers.h:82). -/
structure Sample where
  col : Nat
  row : Nat
  pt : V2

/-- The 9×9 grid of samples (undistort-helpers.h:35-84), given how a keypoint is normalised.  The divisions by `N - 1`
are integer divisions (undistort-helpers.h:37-38). -/
noncomputable def samples (w h : Nat) (normalize : V2 → V2) : List Sample :=
  (List.range 9).flatMap fun y => (List.range 9).map fun x =>
    ⟨x, y, normalize (((x * w / 8 : Nat) : ℝ), ((y * h / 8 : Nat) : ℝ))⟩

/-- Normalising without undoing the projection (undistort-helpers.h:76-79), for the camera matrix `fx, fy, cx, cy`. -/
noncomputable def normalizePlain (fx fy cx cy : ℝ) (undistort : V2 → V2) (k : V2) : V2 :=
  undistort (1 / fx * (k.1 - cx), 1 / fy * (k.2 - cy))

/-- Normalising including the projection (undistort-helpers.h:68-72), given the back-projection; its success is not
looked at. -/
noncomputable def normalizeFull (backProject : V2 → V3) (k : V2) : V2 :=
  let p := backProject k
  (p.1 / p.2.2, p.2.1 / p.2.2)

/-- `FLT_MAX` (undistort-helpers.h:86-87). -/
noncomputable def fltMax : ℝ := (2 - 1 / 2 ^ 23) * 2 ^ 127

/-- The edges being collected (undistort-helpers.h:86-87). -/
structure Edges where
  iX0 : ℝ
  iX1 : ℝ
  iY0 : ℝ
  iY1 : ℝ
  oX0 : ℝ
  oX1 : ℝ
  oY0 : ℝ
  oY1 : ℝ

/-- The edges before the loop (undistort-helpers.h:86-87). -/
noncomputable def Edges.start : Edges :=
  ⟨-fltMax, fltMax, -fltMax, fltMax, fltMax, -fltMax, fltMax, -fltMax⟩

/-- One pass of the loop (undistort-helpers.h:93-102). -/
noncomputable def Edges.step (e : Edges) (s : Sample) : Edges :=
  { oX0 := min e.oX0 s.pt.1
    oX1 := max e.oX1 s.pt.1
    oY0 := min e.oY0 s.pt.2
    oY1 := max e.oY1 s.pt.2
    iX0 := if s.col = 0 then max e.iX0 s.pt.1 else e.iX0
    iX1 := if s.col = 8 then min e.iX1 s.pt.1 else e.iX1
    iY0 := if s.row = 0 then max e.iY0 s.pt.2 else e.iY0
    iY1 := if s.row = 8 then min e.iY1 s.pt.2 else e.iY1 }

/-- The edges after the loop (undistort-helpers.h:90-104). -/
noncomputable def edges (ss : List Sample) : Edges := ss.foldl Edges.step Edges.start

/-- `getUndistortRectangles` (undistort-helpers.h:27-107): the inner and the outer rectangle. -/
noncomputable def rectangles (ss : List Sample) : Rect × Rect :=
  let e := edges ss
  (⟨e.iX0, e.iY0, e.iX1 - e.iX0, e.iY1 - e.iY0⟩, ⟨e.oX0, e.oY0, e.oX1 - e.oX0, e.oY1 - e.oY0⟩)

/-! ### The output camera -/

/-- A camera matrix (undistort-helpers.h:119-155). -/
structure CameraMatrix where
  fx : ℝ
  fy : ℝ
  cx : ℝ
  cy : ℝ

/-- `static_cast<int>(scale * size)` (undistort-helpers.h:127-128, undistorter-mapped.cc:32-33,
undistorter-mapped-inl.h:53-55). -/
noncomputable def outputSize (scale : ℝ) (size : Nat) : ℤ := ⌊scale * size⌋

/-- `getOptimalNewCameraMatrix` (undistort-helpers.h:119-155), given the rectangles. -/
noncomputable def newCameraMatrix (w h : Nat) (inner outer : Rect) (alpha scale : ℝ) : Outcome CameraMatrix :=
  if ¬ alpha ≥ 0 then .abort
  else if ¬ alpha ≤ 1 then .abort
  else if ¬ scale > 0 then .abort
  else
    let width : ℝ := outputSize scale w
    let height : ℝ := outputSize scale h
    let fx0 := (width - 1) / inner.width
    let fy0 := (height - 1) / inner.height
    let cx0 := -fx0 * inner.x
    let cy0 := -fy0 * inner.y
    let fx1 := (width - 1) / outer.width
    let fy1 := (height - 1) / outer.height
    let cx1 := -fx1 * outer.x
    let cy1 := -fy1 * outer.y
    .ok ⟨fx0 * (1 - alpha) + fx1 * alpha, fy0 * (1 - alpha) + fy1 * alpha,
      cx0 * (1 - alpha) + cx1 * alpha, cy0 * (1 - alpha) + cy1 * alpha⟩

/-! ### The maps -/

/-- The keypoint of the input camera for the pixel `k` of the output image (undistort-helpers.h:190-199), given the
back-projection of the output camera and the projection of the input camera; their statuses are not looked at.
`none`: the values are not finite. -/
noncomputable def mapEntry (backProject : V2 → Option V3) (project : V3 → Option V2) (k : V2) : Option V2 :=
  (backProject k).bind fun p =>
    if p.2.2 = 0 then none else project (p.1 / p.2.2, p.2.1 / p.2.2, 1)

/-- One entry of the maps of type `CV_16SC2` and `CV_16UC1`. -/
structure Packed where
  u : Int
  v : Int
  frac : Nat
  deriving DecidableEq, Repr

/-- The conversion to fixed point of the rounded coordinates `iu` and `iv` (undistort-helpers.h:203-208).  `>>` is the
arithmetic shift, `(short)` keeps the lower 16 bits. -/
def pack (iu iv : Int) : Packed :=
  ⟨(iu / 32).bmod 65536, (iv / 32).bmod 65536, ((iv % 32) * 32 + iu % 32).toNat % 65536⟩

end Verif.Undistort
