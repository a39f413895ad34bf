import Mathlib.Analysis.SpecialFunctions.Trigonometric.Basic
import Verif.Base.Outcome
import Verif.Lsd.Angle

/-!
# Growing a region of pixels

Models `region_grow` of `aslam_cv_detector/src/lsd/lsd-opencv.cc`.

Simplifications: floating point numbers are exact reals; `cv::fastAtan2` with the conversion to
radians is a parameter. A point of the region is its pixel: the other members (`angle`, `modgrad`
and the pointer into `used`) are read from the images at that pixel.
-/

open scoped Classical

namespace Verif.Lsd

/-- lsd-opencv.cc:325-336: the members of the detector that are read when regions are grown and
measured: the size of the image, the angles of its pixels (`none` is `NOTDEF`) and the norms of their
gradients (`modgrad`), at column `x` and row `y`. `atan2 y x` is
`cv::fastAtan2(y, x) * DEG_TO_RADS`. -/
structure Img where
  w : Nat
  h : Nat
  ang : Nat → Nat → Option ℝ
  mod : Nat → Nat → ℝ
  atan2 : ℝ → ℝ → ℝ

/-- A pixel: column and row (lsd-opencv.cc:766-772). -/
abbrev Px := Nat × Nat

/-- The variables of `region_grow`: the map `used`, the region `reg` up to `reg_size`, `reg_angle`,
`sumdx` and `sumdy` (lsd-opencv.cc:745-796). -/
structure Growing where
  used : Px → Bool
  reg : List Px
  angle : ℝ
  sx : ℝ
  sy : ℝ

/-- lsd-opencv.cc:749-760: the region with only the starting point. An undefined angle is read as the
number -1024. -/
noncomputable def growStart (m : Img) (used : Px → Bool) (s : Px) : Growing :=
  let a := (m.ang s.1 s.2).getD (-1024)
  { used := fun p => if p = s then true else used p
    reg := [s]
    angle := a
    sx := Real.cos a
    sy := Real.sin a }

/-- lsd-opencv.cc:773-793: one neighbour: taken if it is unused and aligned with the angle of the
region so far. The vector `reg` has room for `img_width * img_height` points; writing behind it is
undefined behaviour. -/
noncomputable def growVisit (m : Img) (prec : ℝ) (g : Growing) (q : Px) : Outcome Growing :=
  if g.used q = false ∧ isAligned (m.ang q.1 q.2) g.angle prec then
    if g.reg.length < m.w * m.h then
      let a := (m.ang q.1 q.2).getD (-1024)
      .ok {
        used := fun p => if p = q then true else g.used p
        reg := g.reg ++ [q]
        angle := m.atan2 (g.sy + Real.sin a) (g.sx + Real.cos a)
        sx := g.sx + Real.cos a
        sy := g.sy + Real.sin a }
    else .ub
  else .ok g

/-- lsd-opencv.cc:766-772: the pixels from `max(x - 1, 0)` to `min(x + 1, n - 1)`. -/
def window (x n : Nat) : List Nat :=
  List.range' (x - 1) (Nat.min (x + 1) (n - 1) + 1 - (x - 1))

/-- lsd-opencv.cc:766-772: the neighbours of a pixel, itself among them, row by row. -/
def neighbours (m : Img) (p : Px) : List Px :=
  (window p.2 m.h).flatMap fun y => (window p.1 m.w).map fun x => (x, y)

/-- Visiting pixels one after another (lsd-opencv.cc:763-795). -/
noncomputable def growVisits (m : Img) (prec : ℝ) : Growing → List Px → Outcome Growing
  | g, [] => .ok g
  | g, q :: qs => growVisit m prec g q >>= fun g' => growVisits m prec g' qs

/-- lsd-opencv.cc:763-795: the loop over the points of the growing region, cut off after `fuel`
points. -/
noncomputable def growLoop (m : Img) (prec : ℝ) : Nat → Nat → Growing → Outcome Growing
  | 0, _, g => .ok g
  | fuel + 1, i, g =>
    match g.reg[i]? with
    | none => .ok g
    | some p => growVisits m prec g (neighbours m p) >>= fun g' => growLoop m prec fuel (i + 1) g'

/-- lsd-opencv.cc:745-796: `region_grow(s, reg, reg_size, reg_angle, prec)`. The number of rounds is
bounded by the number of pixels; `regionGrow_complete` would fail if the bound cut it off. -/
noncomputable def regionGrow (m : Img) (used : Px → Bool) (s : Px) (prec : ℝ) : Outcome Growing :=
  growLoop m prec (m.w * m.h + 1) 0 (growStart m used s)

end Verif.Lsd
