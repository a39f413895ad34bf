import Verif.Base.Outcome
import Mathlib.Data.Rat.Defs
import Mathlib.Algebra.Order.Ring.Unbundled.Rat
import Mathlib.Algebra.Order.Group.Unbundled.Abs
import Mathlib.Algebra.Order.Ring.Rat

/-!
# Comparing images in tests

Models `aslam_cv_common/include/aslam/common/opencv-predicates.h`.  Simplifications: the scalars of an image
are exact rational numbers or not finite; the tolerance is a rational number; of the text of a failure the
positions and the pattern are modelled, not the printed values.
-/

namespace Verif.ImageEqual

open Verif (Outcome)

/-- `cv::Mat::depth` (opencv-predicates.h:110-131); `other` is any depth not listed there. -/
inductive Depth where
  | u8 | i8 | u16 | i16 | i32 | f32 | f64 | other
  deriving DecidableEq, Repr

/-- A scalar of an image (opencv-predicates.h:57-61): a number, or infinite or not a number. -/
inductive Scal where
  | num (q : ℚ)
  | notFinite
  deriving DecidableEq, Repr

/-- `cv::Mat` as used at opencv-predicates.h:36-147: the scalars of a row lie next to each other, the channels of a
pixel together. -/
structure Mat where
  rows : Nat
  cols : Nat
  channels : Nat
  depth : Depth
  data : List (List Scal)
  deriving DecidableEq, Repr

/-- `(&A.at<Scalar>(r, c))[ch]` (opencv-predicates.h:57-58).  `at<Scalar>(r, c)` counts in scalars, not in pixels: it
is the scalar `c` of row `r`.  Outside of the row is undefined. -/
def Mat.read (A : Mat) (r c ch : Nat) : Outcome Scal :=
  match A.data[r]? with
  | none => .ub
  | some row =>
    match row[c + ch]? with
    | none => .ub
    | some s => .ok s

/-- `Eigen::internal::isApprox` (opencv-predicates.h:61) for integers: equal; for floating point numbers: relative to
the smaller number. -/
def isApprox (float : Bool) (a b tolerance : ℚ) : Bool :=
  if float then decide (|a - b| ≤ min |a| |b| * tolerance) else decide (a = b)

/-- opencv-predicates.h:59-61: the scalars are taken to be different. -/
def differ (float : Bool) (a b : Scal) (tolerance : ℚ) : Bool :=
  match a, b with
  | .num p, .num q => !isApprox float p q tolerance
  | _, _ => true

/-- Where the text of a failure says that the images differ (opencv-predicates.h:63-72). -/
inductive Place where
  | position (c : Nat)
  | at (r c : Nat)
  deriving DecidableEq, Repr

/-- opencv-predicates.h:63-72. -/
def place (A : Mat) (r c : Nat) : Place :=
  if A.rows = 1 then .position c
  else if A.cols = 1 then .position c
  else .at r c

/-- `testing::AssertionResult`: success, or a failure with a reason, or with the places at which the images differ and
the pattern of differences, if it is shown (opencv-predicates.h:42-45, 64-72, 85-94, 105, 133). -/
inductive Result where
  | success
  | sizeMismatch
  | typeMismatch
  | unsupported
  | failure (places : List Place) (pattern : Option (List (List Bool)))
  deriving DecidableEq, Repr

/-- One row of the comparison (opencv-predicates.h:55-78): for every scalar looked at, where it is and whether the
images differ. -/
def compareRow (A B : Mat) (float : Bool) (tolerance : ℚ) (r : Nat) : Outcome (List (Place × Bool)) :=
  ((List.range A.cols).flatMap fun c => (List.range A.channels).map fun ch => (c, ch)).mapM fun x => do
    let a ← A.read r x.1 x.2
    let b ← B.read r x.1 x.2
    return (place A r x.1, differ float a b tolerance)

/-- `ImagesEqualTyped` (opencv-predicates.h:36-95); `default` is `TestTolerance<Scalar>::kDiffTolerance`
(opencv-predicates.h:20-33). -/
def imagesEqualTyped (float : Bool) (default : ℚ) (A B : Mat) (tolerance : ℚ) : Outcome Result :=
  if A.rows ≠ B.rows ∨ A.cols ≠ B.cols ∨ A.channels ≠ B.channels then .ok .sizeMismatch
  else do
    let tolerance := if tolerance < 0 then default else tolerance
    let rows ← (List.range A.rows).mapM (compareRow A B float tolerance)
    let places := (rows.flatten.filter (·.2)).map (·.1)
    let pattern := if A.rows > 1 ∧ A.cols > 1 ∧ A.rows * A.cols > 12 then some (rows.map fun l => l.map (·.2)) else none
    return if rows.flatten.any (·.2) then .failure places pattern else .success

/-- `ImagesEqual(A, B, tolerance)` (opencv-predicates.h:101-138); `cv::Mat::type` is the depth and the number of
channels. -/
def imagesEqual (A B : Mat) (tolerance : ℚ) : Outcome Result :=
  if (A.depth, A.channels) ≠ (B.depth, B.channels) then .ok .typeMismatch
  else match A.depth with
    | .u8 | .i8 | .u16 | .i16 | .i32 => imagesEqualTyped false 0 A B tolerance
    | .f64 => imagesEqualTyped true (1 / 10 ^ 15) A B tolerance
    | .f32 => imagesEqualTyped true (1 / 10 ^ 8) A B tolerance
    | .other => .ok .unsupported

/-- `ImagesEqual(A, B)` (opencv-predicates.h:144-147). -/
def imagesEqualDefault (A B : Mat) : Outcome Result := imagesEqual A B (-1)

end Verif.ImageEqual
