import Mathlib.Analysis.SpecialFunctions.Complex.Arg
import Mathlib.Data.Rat.Floor
import Verif.Base.Outcome

/-!
# Operations on lists of line segments

Models the filters and the intersection of `aslam_cv_detector/src/lsd/lsd-opencv.cc`
(`filterSize`, `retainAngle`, `filterOutAngle`, `intersection`) and
`aslam_cv_detector/src/line-segment-detector.cc` (`detect`).

Simplifications: `int` is `Int` and `float` is an exact real or rational number, so a length or an
angle that differs from a limit by less than the rounding of `float` may be treated otherwise by
the code. The matrix reads of OpenCV are spelled out in `Mat`.
-/

open scoped Classical

namespace Verif.Lsd.Lines

/-- `cv::Vec4i`: a segment from `(x1, y1)` to `(x2, y2)`. -/
structure Seg where
  x1 : Int
  y1 : Int
  x2 : Int
  y2 : Int
  deriving DecidableEq, Repr

/-- lsd-opencv.cc:1380, 1417: `_lines = lines.getMat()`. A matrix of segments, its elements row by
row. A `std::vector` of `n` segments is seen as a matrix of one row and `n` columns; the matrix
`Mat(lines)` that `detect` (line 541) and the filters copy to their output has `n` rows and one
column, and keeps that shape if the output is a `cv::Mat`. -/
structure Mat where
  rows : Nat
  cols : Nat
  elems : List Seg
  deriving Repr

/-- What `getMat()` returns for a `std::vector<Vec4i>`. -/
def Mat.ofVector (l : List Seg) : Mat := ⟨1, l.length, l⟩

/-- What `Mat(f).copyTo(filtered)` leaves in a `cv::Mat` (lsd-opencv.cc:1400, 1433). -/
def Mat.ofCopy (l : List Seg) : Mat := ⟨l.length, 1, l⟩

/-- lsd-opencv.cc:1382-1384, 1419-1421: `for (i = 0; i < _lines.size().width; ++i)` reading
`_lines.at<Vec4i>(i)`: the first `cols` elements. -/
def Mat.visited (m : Mat) : List Seg := m.elems.take m.cols

/-- lsd-opencv.cc:1382-1398, 1419-1431: the loop of the filters: the kept segments in order, and the
number of those that are not kept. -/
noncomputable def filterLoop (keep : Seg → Prop) : List Seg → List Seg × Nat
  | [] => ([], 0)
  | v :: vs =>
    if keep v then (v :: (filterLoop keep vs).1, (filterLoop keep vs).2)
    else ((filterLoop keep vs).1, (filterLoop keep vs).2 + 1)

/-- lsd-opencv.cc:1425: `norm(b - e)`. -/
noncomputable def len (v : Seg) : ℝ :=
  Real.sqrt (((v.x1 - v.x2 : Int) : ℝ) * ((v.x1 - v.x2 : Int) : ℝ) +
    ((v.y1 - v.y2 : Int) : ℝ) * ((v.y1 - v.y2 : Int) : ℝ))

/-- lsd-opencv.cc:1426-1427: the condition of `filterSize`. `-1` is `LSD_NO_SIZE_LIMIT`. -/
def sizeIn (minLength maxLength : ℝ) (v : Seg) : Prop :=
  (minLength = -1 ∨ minLength ≤ len v) ∧ (maxLength = -1 ∨ len v < maxLength)

/-- lsd-opencv.cc:1413-1434: `filterSize(lines, filtered, min_length, max_length)`. -/
noncomputable def filterSize (m : Mat) (minLength maxLength : ℝ) : List Seg × Nat :=
  filterLoop (sizeIn minLength maxLength) m.visited

/-- lsd-opencv.cc:1388-1390: the angle of a segment in degrees, below 180. `atan2` is
`cv::fastAtan2`, in degrees from 0 to 360. -/
noncomputable def angle (atan2 : ℝ → ℝ → ℝ) (v : Seg) : ℝ :=
  let a := atan2 ((v.y2 - v.y1 : Int) : ℝ) ((v.x2 - v.x1 : Int) : ℝ)
  if 180 ≤ a then a - 180 else a

/-- lsd-opencv.cc:1392: `angle_in`. -/
def angleIn (atan2 : ℝ → ℝ → ℝ) (minAngle maxAngle : ℝ) (v : Seg) : Prop :=
  minAngle ≤ angle atan2 v ∧ angle atan2 v ≤ maxAngle

/-- lsd-opencv.cc:1376-1401, 1408-1411: `retainAngle`, which is `angle_filtering` with
`RETAIN_IN`. -/
noncomputable def retainAngle (atan2 : ℝ → ℝ → ℝ) (m : Mat) (minAngle maxAngle : ℝ) :
    List Seg × Nat :=
  filterLoop (angleIn atan2 minAngle maxAngle) m.visited

/-- lsd-opencv.cc:1376-1401, 1403-1406: `filterOutAngle`, which is `angle_filtering` with
`RETAIN_OUT`. -/
noncomputable def filterOutAngle (atan2 : ℝ → ℝ → ℝ) (m : Mat) (minAngle maxAngle : ℝ) :
    List Seg × Nat :=
  filterLoop (fun v => ¬ angleIn atan2 minAngle maxAngle v) m.visited

/-- lsd-opencv.cc:1436-1441: `find_eq_params`: the line is `a x + b y = c`. -/
def eqParams (v : Seg) : Rat × Rat × Rat :=
  let a : Rat := ((v.y2 - v.y1 : Int) : Rat)
  let b : Rat := ((v.x1 - v.x2 : Int) : Rat)
  (a, b, a * (v.x1 : Rat) + b * (v.y1 : Rat))

/-- The conversion of a floating point number to `int`: towards zero (lsd-opencv.cc:1386-1387, 1423-1424). -/
def toInt (q : Rat) : Int := if 0 ≤ q then ⌊q⌋ else ⌈q⌉

/-- The numbers an `int` holds (lsd-opencv.cc:1383, 1420). -/
def fits (n : Int) : Bool := decide (-2147483648 ≤ n) && decide (n ≤ 2147483647)

/-- lsd-opencv.cc:1443-1467: `intersection(line1, line2, P)`; the first segment of each argument is
read. `none` is the return value `false`. The conversion of a number to `int` that is out of its
range is undefined behaviour. -/
def intersection (line1 line2 : List Seg) : Outcome (Option (Int × Int)) :=
  match line1, line2 with
  | l1 :: _, l2 :: _ =>
    let (a1, b1, c1) := eqParams l1
    let (a2, b2, c2) := eqParams l2
    let det := a1 * b2 - a2 * b1
    if det = 0 then .ok none
    else
      let x := (b2 * c1 - b1 * c2) / det
      let y := (a1 * c2 - a2 * c1) / det
      if fits (toInt x) && fits (toInt y) then .ok (some (toInt x, toInt y)) else .ub
  | _, _ => .exc

/-- line-segment-detector.cc:19-35: `detect(image, lines)` after the inner detector has found `raw`:
the segments are filtered by size through `std::vector`s and converted to `double`. The old contents
of `lines` are cleared. -/
noncomputable def detect (minLength : Nat) (raw : List Seg) : List Seg :=
  (filterSize (Mat.ofVector raw) (minLength : ℝ) (-1)).1

end Verif.Lsd.Lines
