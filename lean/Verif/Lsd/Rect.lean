import Verif.Lsd.Grow

/-!
# The rectangle of a region

Models `region2rect` and `get_theta` of `aslam_cv_detector/src/lsd/lsd-opencv.cc`.
Simplifications: floating point numbers are exact reals, `cv::fastAtan2` is the parameter `atan2` of
the image.
-/

open scoped Classical

namespace Verif.Lsd

/-- lsd-opencv.cc:367-376: `struct rect`, without the members `dx`, `dy`, which are the cosine and
the sine of `theta`. -/
structure Rect where
  x1 : ℝ
  y1 : ℝ
  x2 : ℝ
  y2 : ℝ
  width : ℝ
  x : ℝ
  y : ℝ
  theta : ℝ
  prec : ℝ
  p : ℝ

/-- Adding up over the points of a region (lsd-opencv.cc:798-892). -/
noncomputable def over (reg : List Px) (f : Px → ℝ) : ℝ := (reg.map f).sum

/-- lsd-opencv.cc:860-875: the inertia of a region about `(x, y)`: `Ixx`, `Iyy` and `Ixy`. -/
noncomputable def inertia (m : Img) (reg : List Px) (x y : ℝ) : ℝ × ℝ × ℝ :=
  (over reg fun q => ((q.2 : ℝ) - y) * ((q.2 : ℝ) - y) * m.mod q.1 q.2,
   over reg fun q => ((q.1 : ℝ) - x) * ((q.1 : ℝ) - x) * m.mod q.1 q.2,
   over reg fun q => -(((q.1 : ℝ) - x) * ((q.2 : ℝ) - y) * m.mod q.1 q.2))

/-- lsd-opencv.cc:880-887: the angle of the principal axis. -/
noncomputable def axis (atan2 : ℝ → ℝ → ℝ) (ixx iyy ixy : ℝ) : ℝ :=
  let lambda := 1 / 2 * (ixx + iyy - √((ixx - iyy) * (ixx - iyy) + 4 * ixy * ixy))
  if |iyy| < |ixx| then atan2 (lambda - ixx) ixy else atan2 ixy (lambda - iyy)

/-- lsd-opencv.cc:890: `theta` is turned by half a turn if it is not within `prec` of the angle of the
region. -/
noncomputable def orient (theta regAngle prec : ℝ) : ℝ :=
  if prec < angleDiff theta regAngle then theta + Real.pi else theta

/-- lsd-opencv.cc:856-893: `get_theta`. The assertion throws an exception. -/
noncomputable def getTheta (m : Img) (reg : List Px) (x y regAngle prec : ℝ) : Outcome ℝ :=
  let (ixx, iyy, ixy) := inertia m reg x y
  if doubleEqual ixx 0 ∧ doubleEqual iyy 0 ∧ doubleEqual ixy 0 then .exc
  else .ok (orient (axis m.atan2 ixx iyy ixy) regAngle prec)

/-- lsd-opencv.cc:824-836: the range of a coordinate over the region:
`if(l > l_max) l_max = l; else if(l < l_min) l_min = l;` from `0` and `0`. -/
noncomputable def span (f : Px → ℝ) (reg : List Px) : ℝ × ℝ :=
  reg.foldl (fun r q =>
    if r.2 < f q then (r.1, f q) else if f q < r.1 then (f q, r.2) else r) (0, 0)

/-- lsd-opencv.cc:826-829: the coordinate along the axis. -/
noncomputable def along (x y theta : ℝ) (q : Px) : ℝ :=
  ((q.1 : ℝ) - x) * Real.cos theta + ((q.2 : ℝ) - y) * Real.sin theta

/-- lsd-opencv.cc:830: the coordinate across the axis. -/
noncomputable def across (x y theta : ℝ) (q : Px) : ℝ :=
  -((q.1 : ℝ) - x) * Real.sin theta + ((q.2 : ℝ) - y) * Real.cos theta

/-- lsd-opencv.cc:838-853: the members of the rectangle. -/
noncomputable def rectOf (reg : List Px) (x y theta prec p : ℝ) : Rect :=
  let l := span (along x y theta) reg
  let w := span (across x y theta) reg
  { x1 := x + l.1 * Real.cos theta
    y1 := y + l.1 * Real.sin theta
    x2 := x + l.2 * Real.cos theta
    y2 := y + l.2 * Real.sin theta
    width := if w.2 - w.1 < 1 then 1 else w.2 - w.1
    x := x
    y := y
    theta := theta
    prec := prec
    p := p }

/-- lsd-opencv.cc:798-854: `region2rect(reg, reg_size, reg_angle, prec, p, rec)`. -/
noncomputable def region2rect (m : Img) (reg : List Px) (regAngle prec p : ℝ) : Outcome Rect :=
  let sum := over reg fun q => m.mod q.1 q.2
  if 0 < sum then
    let x := (over reg fun q => (q.1 : ℝ) * m.mod q.1 q.2) / sum
    let y := (over reg fun q => (q.2 : ℝ) * m.mod q.1 q.2) / sum
    getTheta m reg x y regAngle prec >>= fun theta => .ok (rectOf reg x y theta prec p)
  else .exc

end Verif.Lsd
