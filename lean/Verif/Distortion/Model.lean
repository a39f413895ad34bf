import Mathlib.Analysis.SpecialFunctions.Trigonometric.Arctan
import Mathlib.Analysis.SpecialFunctions.Sqrt

/-!
# Lens distortion

Model of the distortion models of `aslam_cv_cameras`: `distortion-radtan.cc`, `distortion-fisheye.cc`,
`distortion-equidistant.cc` and `distortion-null.h`, in exact real arithmetic.  The virtual functions with external
coefficients are modelled; the others pass on the coefficients of the object (`distortion.cc:34-66`).  The checks of the
number of coefficients hold by typing.
-/

namespace Verif.Distortion

/-- A 2×2 matrix by rows. -/
structure M2 where
  a : ℝ
  b : ℝ
  c : ℝ
  d : ℝ

/-- A distortion model (distortion.h) with `n` coefficients: distorting a point, the Jacobian of that with respect to
the point, the columns of the Jacobian with respect to the coefficients, and undistorting (`none`: not finite)
(distortion.h:97, 135). -/
structure Model (n : Nat) where
  distort : (Fin n → ℝ) → ℝ × ℝ → ℝ × ℝ
  jacobian : (Fin n → ℝ) → ℝ × ℝ → M2
  parameterJacobian : (Fin n → ℝ) → ℝ × ℝ → Fin n → ℝ × ℝ
  undistort : (Fin n → ℝ) → ℝ × ℝ → Option (ℝ × ℝ)

/-! ## No distortion -/

/-- `NullDistortion` (distortion-null.h:59-66, 94-102, 120-122). -/
noncomputable def null : Model 0 where
  distort _ p := p
  jacobian _ _ := ⟨1, 0, 0, 1⟩
  parameterJacobian _ _ i := i.elim0
  undistort _ p := some p

/-! ## Radial-tangential -/

/-- `RadTanDistortion::distortUsingExternalCoefficients` (distortion-radtan.cc:33-37, 63-64). -/
noncomputable def radtanDistort (k : Fin 4 → ℝ) (p : ℝ × ℝ) : ℝ × ℝ :=
  let x := p.1
  let y := p.2
  let mx2 := x * x
  let my2 := y * y
  let mxy := x * y
  let rho2 := mx2 + my2
  let rad := k 0 * rho2 + k 1 * rho2 * rho2
  (x + (x * rad + 2 * k 2 * mxy + k 3 * (rho2 + 2 * mx2)), y + (y * rad + 2 * k 3 * mxy + k 2 * (rho2 + 2 * my2)))

/-- Its Jacobian (distortion-radtan.cc:39-61). -/
noncomputable def radtanJacobian (k : Fin 4 → ℝ) (p : ℝ × ℝ) : M2 :=
  let x := p.1
  let y := p.2
  let mx2 := x * x
  let my2 := y * y
  let mxy := x * y
  let rho2 := mx2 + my2
  let rad := k 0 * rho2 + k 1 * rho2 * rho2
  let dudu := 1 + rad + 2 * k 0 * mx2 + 4 * k 1 * rho2 * mx2 + 2 * k 2 * y + 6 * k 3 * x
  let dudv := 2 * k 0 * mxy + 4 * k 1 * rho2 * mxy + 2 * k 2 * x + 2 * k 3 * y
  let dvdv := 1 + rad + 2 * k 0 * my2 + 4 * k 1 * rho2 * my2 + 2 * k 3 * x + 6 * k 2 * y
  ⟨dudu, dudv, dudv, dvdv⟩

/-- `distortParameterJacobian` (distortion-radtan.cc:67-91), by columns. -/
noncomputable def radtanParameterJacobian (_k : Fin 4 → ℝ) (p : ℝ × ℝ) : Fin 4 → ℝ × ℝ :=
  let y0 := p.1
  let y1 := p.2
  let r2 := y0 * y0 + y1 * y1
  let r4 := r2 * r2
  ![(y0 * r2, y1 * r2), (y0 * r4, y1 * r4), (2 * y0 * y1, r2 + 2 * y1 * y1), (r2 + 2 * y0 * y0, 2 * y0 * y1)]

/-- The Newton step of `undistortUsingExternalCoefficients` (distortion-radtan.cc:107-113):
`(FᵀF)⁻¹Fᵀe`; a singular `FᵀF` gives infinities in the code, `none` here. -/
noncomputable def newtonStep (F : M2) (e : ℝ × ℝ) : Option (ℝ × ℝ) :=
  let m11 := F.a * F.a + F.c * F.c
  let m12 := F.a * F.b + F.c * F.d
  let m22 := F.b * F.b + F.d * F.d
  let det := m11 * m22 - m12 * m12
  let g1 := F.a * e.1 + F.c * e.2
  let g2 := F.b * e.1 + F.d * e.2
  if det = 0 then none else some ((m22 * g1 - m12 * g2) / det, (m11 * g2 - m12 * g1) / det)

/-- The loop (distortion-radtan.cc:106-115, distortion-equidistant.cc:160-169) with `n` rounds left; the tolerance is
the flag `acv_inv_distortion_tolerance`. -/
noncomputable def newtonLoop (distort : ℝ × ℝ → ℝ × ℝ) (jacobian : ℝ × ℝ → M2) (tolerance : ℝ) (y : ℝ × ℝ) :
    Nat → ℝ × ℝ → Option (ℝ × ℝ)
  | 0, ybar => some ybar
  | n + 1, ybar =>
    let t := distort ybar
    let e := (y.1 - t.1, y.2 - t.2)
    match newtonStep (jacobian ybar) e with
    | none => none
    | some du =>
      let next := (ybar.1 + du.1, ybar.2 + du.2)
      if e.1 * e.1 + e.2 * e.2 ≤ tolerance then some next else newtonLoop distort jacobian tolerance y n next

/-- `RadTanDistortion::undistortUsingExternalCoefficients` (distortion-radtan.cc:93-118). -/
noncomputable def radtanUndistort (tolerance : ℝ) (k : Fin 4 → ℝ) (p : ℝ × ℝ) : Option (ℝ × ℝ) :=
  newtonLoop (radtanDistort k) (radtanJacobian k) tolerance p 30 p

/-- `RadTanDistortion` (distortion-radtan.h) (distortion-radtan.h:19). -/
noncomputable def radtan (tolerance : ℝ) : Model 4 :=
  ⟨radtanDistort, radtanJacobian, radtanParameterJacobian, radtanUndistort tolerance⟩

/-! ## Fisheye -/

/-- The scaling factor of `FisheyeDistortion::distortUsingExternalCoefficients` (distortion-fisheye.cc:25-43). -/
noncomputable def fisheyeScale (w r : ℝ) : ℝ :=
  let tanwhalf := Real.tan (w / 2)
  if w * w < 1e-5 then 1
  else if r * r < 1e-5 then 2 * tanwhalf / w
  else Real.arctan (2 * tanwhalf * r) / (r * w)

/-- `norm` of a point (used at distortion-fisheye.cc:25-43, 119-143). -/
noncomputable def norm2 (p : ℝ × ℝ) : ℝ := Real.sqrt (p.1 * p.1 + p.2 * p.2)

/-- `FisheyeDistortion::distortUsingExternalCoefficients` (distortion-fisheye.cc:14-80). -/
noncomputable def fisheyeDistort (k : Fin 1 → ℝ) (p : ℝ × ℝ) : ℝ × ℝ :=
  let s := fisheyeScale (k 0) (norm2 p)
  (p.1 * s, p.2 * s)

/-- Its Jacobian (distortion-fisheye.cc:48-77). -/
noncomputable def fisheyeJacobian (k : Fin 1 → ℝ) (p : ℝ × ℝ) : M2 :=
  let w := k 0
  let u := p.1
  let v := p.2
  let r := norm2 p
  let r3 := r * r * r
  let tanwhalf := Real.tan (w / 2)
  let tanwhalfsq := tanwhalf * tanwhalf
  let at' := Real.arctan (2 * tanwhalf * r)
  if w * w < 1e-5 then ⟨1, 0, 0, 1⟩
  else if r * r < 1e-5 then ⟨2 * tanwhalf / w, 0, 0, 2 * tanwhalf / w⟩
  else
    let den := w * (u * u + v * v) * (4 * tanwhalfsq * (u * u + v * v) + 1)
    ⟨at' / (w * r) - (u * u * at') / (w * r3) + (2 * u * u * tanwhalf) / den,
      (2 * u * v * tanwhalf) / den - (u * v * at') / (w * r3),
      (2 * u * v * tanwhalf) / den - (u * v * at') / (w * r3),
      at' / (w * r) - (v * v * at') / (w * r3) + (2 * v * v * tanwhalf) / den⟩

/-- `distortParameterJacobian` (distortion-fisheye.cc:82-117). -/
noncomputable def fisheyeParameterJacobian (k : Fin 1 → ℝ) (p : ℝ × ℝ) : Fin 1 → ℝ × ℝ :=
  let w := k 0
  let u := p.1
  let v := p.2
  let r := norm2 p
  let tanwhalf := Real.tan (w / 2)
  let tanwhalfsq := tanwhalf * tanwhalf
  let at' := Real.arctan (2 * tanwhalf * r)
  if w * w < 1e-5 then fun _ => (0, 0)
  else if r * r < 1e-5 then
    let c := (w - Real.sin w) / (w * w * Real.cos (w / 2) * Real.cos (w / 2))
    fun _ => (c, c)
  else fun _ =>
    ((2 * u * (tanwhalfsq / 2 + 0.5)) / (w * (4 * tanwhalfsq * r * r + 1)) - (u * at') / (w * w * r),
      (2 * v * (tanwhalfsq / 2 + 0.5)) / (w * (4 * tanwhalfsq * r * r + 1)) - (v * at') / (w * w * r))

/-- The largest angle that is undistorted (distortion-fisheye.h, `kMaxValidAngle`) (distortion-fisheye.h:149). -/
noncomputable def maxValidAngle : ℝ := 89 * Real.pi / 180

/-- `FisheyeDistortion::undistortUsingExternalCoefficients` (distortion-fisheye.cc:119-143). -/
noncomputable def fisheyeUndistort (k : Fin 1 → ℝ) (p : ℝ × ℝ) : ℝ × ℝ :=
  let w := k 0
  let m := Real.tan (w / 2) * 2
  let rd := norm2 p
  if m = 0 ∨ rd = 0 then p
  else if |rd * w| ≤ maxValidAngle then
    let s := Real.tan (rd * w) / (rd * m)
    (p.1 * s, p.2 * s)
  else p

/-- `FisheyeDistortion::areParametersValid` (distortion-fisheye.cc:145-156). -/
def FisheyeValid (k : Fin 1 → ℝ) : Prop := |k 0| < 1e-16 ∨ (0.5 ≤ k 0 ∧ k 0 ≤ 1.5)

/-- `FisheyeDistortion` (distortion-fisheye.h) (distortion-fisheye.h:15). -/
noncomputable def fisheye : Model 1 :=
  ⟨fisheyeDistort, fisheyeJacobian, fisheyeParameterJacobian, fun k p => some (fisheyeUndistort k p)⟩

/-! ## Equidistant -/

/-- The polynomial of the angle (distortion-equidistant.cc:48-53). -/
noncomputable def thetad (k : Fin 4 → ℝ) (theta : ℝ) : ℝ :=
  let theta2 := theta * theta
  let theta4 := theta2 * theta2
  let theta6 := theta2 * theta4
  let theta8 := theta4 * theta4
  theta * (1 + k 0 * theta2 + k 1 * theta4 + k 2 * theta6 + k 3 * theta8)

/-- `EquidistantDistortion::distortUsingExternalCoefficients` (distortion-equidistant.cc:14-53, 104-106). -/
noncomputable def equidistantDistort (k : Fin 4 → ℝ) (p : ℝ × ℝ) : ℝ × ℝ :=
  let r := norm2 p
  if r < 1e-10 then p
  else
    let s := if 1e-8 < r then thetad k (Real.arctan r) / r else 1
    (p.1 * s, p.2 * s)

/-- Its Jacobian (distortion-equidistant.cc:55-102); `pow(x2 + y2, 3.0 / 2.0)` is the third power of the root. -/
noncomputable def equidistantJacobian (k : Fin 4 → ℝ) (p : ℝ × ℝ) : M2 :=
  let x := p.1
  let y := p.2
  let x2 := x * x
  let y2 := y * y
  let r := norm2 p
  if r < 1e-10 then ⟨0, 0, 0, 0⟩
  else
    let theta := Real.arctan r
    let theta2 := theta * theta
    let theta4 := theta2 * theta2
    let theta6 := theta2 * theta4
    let theta8 := theta4 * theta4
    let theta3 := theta2 * theta
    let theta5 := theta4 * theta
    let theta7 := theta6 * theta
    let g := k 0 * theta2 + k 1 * theta4 + k 2 * theta6 + k 3 * theta8 + 1
    let hx := (k 1 * x * theta3 * 1 / r * 4) / (x2 + y2 + 1) + (k 2 * x * theta5 * 1 / r * 6) / (x2 + y2 + 1)
      + (k 3 * x * theta7 * 1 / r * 8) / (x2 + y2 + 1) + (k 0 * x * theta * 1 / r * 2) / (x2 + y2 + 1)
    let hy := (k 1 * y * theta3 * 1 / r * 4) / (x2 + y2 + 1) + (k 2 * y * theta5 * 1 / r * 6) / (x2 + y2 + 1)
      + (k 3 * y * theta7 * 1 / r * 8) / (x2 + y2 + 1) + (k 0 * y * theta * 1 / r * 2) / (x2 + y2 + 1)
    let r3 := r * r * r
    ⟨theta * 1 / r * g + x * theta * 1 / r * hx + (x2 * g) / ((x2 + y2) * (x2 + y2 + 1)) - x2 * theta * 1 / r3 * g,
      x * theta * 1 / r * hy + (x * y * g) / ((x2 + y2) * (x2 + y2 + 1)) - x * y * theta * 1 / r3 * g,
      y * theta * 1 / r * hx + (x * y * g) / ((x2 + y2) * (x2 + y2 + 1)) - x * y * theta * 1 / r3 * g,
      theta * 1 / r * g + y * theta * 1 / r * hy + (y2 * g) / ((x2 + y2) * (x2 + y2 + 1)) - y2 * theta * 1 / r3 * g⟩

/-- `distortParameterJacobian` (distortion-equidistant.cc:109-142), by columns. -/
noncomputable def equidistantParameterJacobian (_k : Fin 4 → ℝ) (p : ℝ × ℝ) : Fin 4 → ℝ × ℝ :=
  let x := p.1
  let y := p.2
  let r := norm2 p
  let theta := Real.arctan r
  if r < 1e-10 then fun _ => (0, 0)
  else ![(x * theta ^ 3 * 1 / r, y * theta ^ 3 * 1 / r), (x * theta ^ 5 * 1 / r, y * theta ^ 5 * 1 / r),
    (x * theta ^ 7 * 1 / r, y * theta ^ 7 * 1 / r), (x * theta ^ 9 * 1 / r, y * theta ^ 9 * 1 / r)]

/-- `EquidistantDistortion::undistortUsingExternalCoefficients` (distortion-equidistant.cc:144-173). -/
noncomputable def equidistantUndistort (tolerance : ℝ) (k : Fin 4 → ℝ) (p : ℝ × ℝ) : Option (ℝ × ℝ) :=
  if p.1 * p.1 + p.2 * p.2 < 1e-6 then some p
  else newtonLoop (equidistantDistort k) (equidistantJacobian k) tolerance p 30 p

/-- `EquidistantDistortion` (distortion-equidistant.h) (distortion-equidistant.h:20). -/
noncomputable def equidistant (tolerance : ℝ) : Model 4 :=
  ⟨equidistantDistort, equidistantJacobian, equidistantParameterJacobian, equidistantUndistort tolerance⟩

end Verif.Distortion
