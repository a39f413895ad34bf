import Mathlib.Analysis.Real.Pi.Bounds
import Mathlib.Data.Real.Archimedean

/-!
# Angles in the line segment detector

Models `angle_diff_signed`, `angle_diff`, `double_equal` and `isAligned` of
`aslam_cv_detector/src/lsd/lsd-opencv.cc`. Simplification: `double` is an exact real number, and
`CV_PI` is π.
-/

open scoped Classical

namespace Verif.Lsd

/-- lsd-opencv.cc:108: `while(diff <= -CV_PI) diff += M_2__PI;`. The loop is cut off after `fuel`
rounds. -/
noncomputable def raise : Nat → ℝ → ℝ
  | 0, diff => diff
  | fuel + 1, diff => if diff ≤ -Real.pi then raise fuel (diff + 2 * Real.pi) else diff

/-- lsd-opencv.cc:109: `while(diff > CV_PI) diff -= M_2__PI;`. -/
noncomputable def lower : Nat → ℝ → ℝ
  | 0, diff => diff
  | fuel + 1, diff => if Real.pi < diff then lower fuel (diff - 2 * Real.pi) else diff

/-- lsd-opencv.cc:105-111: `angle_diff_signed(a, b)`. The number of rounds allowed to the loops is
more than they take (`angleDiffSigned_range` would fail otherwise). -/
noncomputable def angleDiffSigned (a b : ℝ) : ℝ :=
  let diff := a - b
  let fuel := ⌈|diff|⌉₊
  lower fuel (raise fuel diff)

/-- lsd-opencv.cc:114-117: `angle_diff(a, b)`. -/
noncomputable def angleDiff (a b : ℝ) : ℝ := |angleDiffSigned a b|

/-- lsd-opencv.cc:120-133: `double_equal(a, b)`; `DBL_MIN` is 2⁻¹⁰²² and `DBL_EPSILON` is 2⁻⁵². -/
def doubleEqual (a b : ℝ) : Prop :=
  a = b ∨
    |a - b| / (if (if |b| < |a| then |a| else |b|) < (1 / 2) ^ 1022 then (1 / 2) ^ 1022
      else (if |b| < |a| then |a| else |b|)) ≤ 100 * (1 / 2) ^ 52

/-- lsd-opencv.cc:1246-1262: `isAligned(address, theta, prec)`. The angle at the address is given;
`none` is `NOTDEF`, and also stands for a negative address. -/
def isAligned (a : Option ℝ) (theta prec : ℝ) : Prop :=
  match a with
  | none => False
  | some a =>
    let n := if theta - a < 0 then -(theta - a) else theta - a
    let n := if 3 * Real.pi / 2 < n then
        (if n - 2 * Real.pi < 0 then -(n - 2 * Real.pi) else n - 2 * Real.pi)
      else n
    n ≤ prec

end Verif.Lsd
