import Verif.OccupancyGrid.Model

/-!
# Occupancy grid: the mask of occupied places

Model of `getOccupancyMask` (occupancy-grid-inl.h:302-335).

* The mask is a function of row and column; drawing changes pixels inside of the image only.
* `cv::rectangle` filled paints the pixels between two opposite corners, corners included.
* Which pixels `cv::circle` paints is a parameter (`disc`) of radius and offsets from the centre.
* The conversions of coordinates to `int` are assumed not to overflow.
-/

namespace Verif.OccupancyGrid.Mask

open Verif (Outcome)
open Verif.OccupancyGrid

/-- A `CV_8UC1` image: size and pixels by row and column (occupancy-grid-inl.h:310-312). -/
structure Image where
  rows : Int
  cols : Int
  px : Int → Int → Nat

/-- Conversion of `double` to `int` (occupancy-grid-inl.h:320, 326-328): towards zero. -/
def toInt (q : ℚ) : Int := if q < 0 then ⌈q⌉ else ⌊q⌋

/-- Painting all pixels of a shape with 0 (occupancy-grid-inl.h:320-321, 329). -/
def Image.paint (m : Image) (shape : Int → Int → Bool) : Image :=
  { m with px := fun y x => if 0 ≤ y ∧ y < m.rows ∧ 0 ≤ x ∧ x < m.cols ∧ shape y x then 0 else m.px y x }

/-- `cv::circle(mask, cv::Point(point.v_cols, point.u_rows), radius, 0, CV_FILLED)` (occupancy-grid-inl.h:319-322); the
radius is converted to `int`. -/
def drawPoint (disc : Int → Int → Int → Bool) (radius : ℚ) (m : Image) (p : Pt) : Image :=
  m.paint fun y x => disc (toInt radius) (y - toInt p.u) (x - toInt p.v)

/-- The rectangle over a full cell (occupancy-grid-inl.h:325-329). -/
def drawCell (g : Grid) (m : Image) (k : Cell) : Image :=
  let top := toInt (k.1 * g.cellR)
  let left := toInt (k.2 * g.cellC)
  let bottom := toInt ((k.1 + 1) * g.cellR - 1)
  let right := toInt ((k.2 + 1) * g.cellC - 1)
  m.paint fun y x => decide (min top bottom ≤ y ∧ y ≤ max top bottom ∧ min left right ≤ x ∧ x ≤ max left right)

/-- The body of the loops (occupancy-grid-inl.h:314-332). -/
def drawOne (disc : Int → Int → Int → Bool) (radius : ℚ) (n : Nat) (g : Grid) (m : Image) (k : Cell) : Outcome Image := do
  let cell ← g.getCell k
  let m1 := cell.foldl (drawPoint disc radius) m
  .ok (if cell.length ≥ n then drawCell g m1 k else m1)

/-- `getOccupancyMask` (occupancy-grid-inl.h:302-335). -/
def occupancyMask (disc : Int → Int → Int → Bool) (g : Grid) (radius : ℚ) (n : Nat) : Outcome Image := do
  Outcome.check (decide (radius > 0))
  Outcome.check (decide (n > 0))
  g.coords.foldlM (drawOne disc radius n g) ⟨⌊g.maxR⌋, ⌊g.maxC⌋, fun _ _ => 255⟩

end Verif.OccupancyGrid.Mask
