import Mathlib.Analysis.Real.Sqrt
import Mathlib.Data.Matrix.Mul
import Mathlib.Data.Fin.VecNotation
import Mathlib.LinearAlgebra.Matrix.Notation

/-!
# Initialisation of the focal length

Model of aslam_cv_calibration: `InitializerHelpers` (helpers.h) and `initFocalLengthAbsoluteConic`
(focallength-initializers.cc:114-201).  Exact real arithmetic.
-/

namespace Verif.Calibration

/-! ## Circles -/

/-- `hypot` (helpers.h:18-20). -/
noncomputable def hypot (a b : ℝ) : ℝ := Real.sqrt (a * a + b * b)

open Classical in
/-- `intersectCircles` (helpers.h:22-53): the points appended.  `none`: the centres are the same and so are the radii;
the code divides by zero and appends two points that are not numbers. -/
noncomputable def intersectCircles (x1 y1 r1 x2 y2 r2 : ℝ) : Option (List (ℝ × ℝ)) :=
  let d := hypot (x1 - x2) (y1 - y2)
  if r1 + r2 < d then some []
  else if d < |r1 - r2| then some []
  else if d = 0 then none
  else
    let a := (r1 * r1 - r2 * r2 + d * d) / (2 * d)
    let h := Real.sqrt (r1 * r1 - a * a)
    let x3 := x1 + a * (x2 - x1) / d
    let y3 := y1 + a * (y2 - y1) / d
    if h < 1e-10 then some [(x3, y3)]
    else some [(x3 + h * (y2 - y1) / d, y3 - h * (x2 - x1) / d), (x3 - h * (y2 - y1) / d, y3 + h * (x2 - x1) / d)]

/-- The sums of `fitCircle` (helpers.h:64-72). -/
structure Sums where
  x : ℝ := 0
  y : ℝ := 0
  xx : ℝ := 0
  xy : ℝ := 0
  yy : ℝ := 0
  xxx : ℝ := 0
  xxy : ℝ := 0
  xyy : ℝ := 0
  yyy : ℝ := 0

/-- The first loop of `fitCircle` (helpers.h:75-88). -/
noncomputable def sums : List (ℝ × ℝ) → Sums → Sums
  | [], s => s
  | p :: ps, s =>
    let x := p.1
    let y := p.2
    sums ps { x := s.x + x, y := s.y + y, xx := s.xx + x * x, xy := s.xy + x * y, yy := s.yy + y * y,
              xxx := s.xxx + x * x * x, xxy := s.xxy + x * x * y, xyy := s.xyy + x * y * y, yyy := s.yyy + y * y * y }

/-- The second loop of `fitCircle` (helpers.h:99-104). -/
noncomputable def sumRadius (cx cy : ℝ) : List (ℝ × ℝ) → ℝ → ℝ
  | [], s => s
  | p :: ps, s => sumRadius cx cy ps (s + hypot (p.1 - cx) (p.2 - cy))

open Classical in
/-- `fitCircle` (helpers.h:58-106): centre and radius; `none`: it divides by zero. -/
noncomputable def fitCircle (points : List (ℝ × ℝ)) : Option (ℝ × ℝ × ℝ) :=
  let s := sums points {}
  let n : ℝ := points.length
  let A := n * s.xx - s.x * s.x
  let B := n * s.xy - s.x * s.y
  let C := n * s.yy - s.y * s.y
  let D := 1 / 2 * (n * s.xyy - s.x * s.yy + n * s.xxx - s.x * s.xx)
  let E := 1 / 2 * (n * s.xxy - s.y * s.xx + n * s.yyy - s.y * s.yy)
  if A * C - B * B = 0 then none
  else
    let cx := (D * C - B * E) / (A * C - B * B)
    let cy := (A * E - B * D) / (A * C - B * B)
    some (cx, cy, sumRadius cx cy points 0 / n)

/-! ## Absolute conic -/

/-- A homography (focallength-initializers.cc:151). -/
abbrev H3 := Matrix (Fin 3) (Fin 3) ℝ

/-- The image centre is moved to the origin (focallength-initializers.cc:153-158). -/
noncomputable def centred (cu cv : ℝ) (H : H3) : H3 := fun i j =>
  if i = 0 then H 0 j - H 2 j * cu else if i = 1 then H 1 j - H 2 j * cv else H i j

/-- The sum of the squares of the entries (focallength-initializers.cc:161-171). -/
noncomputable def normSq (x : Fin 3 → ℝ) : ℝ := x 0 * x 0 + x 1 * x 1 + x 2 * x 2

/-- Entries scaled by `1.0 / sqrt(n[j])` (focallength-initializers.cc:173-180). -/
noncomputable def scaled (x : Fin 3 → ℝ) : Fin 3 → ℝ := fun j => x j * (1 / Real.sqrt (normSq x))

/-- Two rows of the linear system, as `(A(i, 0), A(i, 1), b(i))` (focallength-initializers.cc:160-187). -/
noncomputable def conicRows (cu cv : ℝ) (H : H3) : (ℝ × ℝ × ℝ) × (ℝ × ℝ × ℝ) :=
  let H := centred cu cv H
  let h := scaled fun j => H j 0
  let v := scaled fun j => H j 1
  let d1 := scaled fun j => (H j 0 + H j 1) * (1 / 2)
  let d2 := scaled fun j => (H j 0 - H j 1) * (1 / 2)
  ((h 0 * v 0, h 1 * v 1, -h 2 * v 2), (d1 0 * d2 0, d1 1 * d2 1, -d1 2 * d2 2))

/-- The loop over the observations (focallength-initializers.cc:126-188): for each one the homography from the target to
the image (`cv::findHomography`), or `none` if not all corners were observed: then the rows of that observation are what
was in the memory before (`garbage`, one pair of rows per observation). -/
noncomputable def conicSystem (cu cv : ℝ) :
    List (Option H3) → List ((ℝ × ℝ × ℝ) × (ℝ × ℝ × ℝ)) → List (ℝ × ℝ × ℝ)
  | [], _ => []
  | o :: os, garbage =>
    let rows := match o with
      | some H => conicRows cu cv H
      | none => garbage.headD ((0, 0, 0), (0, 0, 0))
    rows.1 :: rows.2 :: conicSystem cu cv os garbage.tail

/-- `A.t() * A` of the rows (`cv::solve` with `DECOMP_NORMAL`, focallength-initializers.cc:191). -/
noncomputable def normalMatrix (rows : List (ℝ × ℝ × ℝ)) : Matrix (Fin 2) (Fin 2) ℝ :=
  !![(rows.map fun r => r.1 * r.1).sum, (rows.map fun r => r.1 * r.2.1).sum;
     (rows.map fun r => r.1 * r.2.1).sum, (rows.map fun r => r.2.1 * r.2.1).sum]

/-- `A.t() * b` of the rows (focallength-initializers.cc:191). -/
noncomputable def normalVector (rows : List (ℝ × ℝ × ℝ)) : Fin 2 → ℝ :=
  ![(rows.map fun r => r.1 * r.2.2).sum, (rows.map fun r => r.2.1 * r.2.2).sum]

/-- `initFocalLengthAbsoluteConic` (focallength-initializers.cc:114-201) for images of the given size: the intrinsics
`(fu, fv, cu, cv)`; it always returns true.  `solve` is `cv::solve` for the normal equations
(`DECOMP_NORMAL | DECOMP_LU`). -/
noncomputable def absoluteConic (solve : Matrix (Fin 2) (Fin 2) ℝ → (Fin 2 → ℝ) → Fin 2 → ℝ) (width height : ℝ)
    (observations : List (Option H3)) (garbage : List ((ℝ × ℝ × ℝ) × (ℝ × ℝ × ℝ))) : ℝ × ℝ × ℝ × ℝ :=
  let cu := (width - 1) / 2
  let cv := (height - 1) / 2
  let rows := conicSystem cu cv observations garbage
  let f := solve (normalMatrix rows) (normalVector rows)
  (Real.sqrt |1 / f 0|, Real.sqrt |1 / f 1|, cu, cv)

end Verif.Calibration
