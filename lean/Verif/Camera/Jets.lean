import Verif.Camera.Model
import Verif.Base.Outcome

/-!
# Projection with automatic differentiation

Model of the templates `PinholeCamera::project3Functional` (camera-pinhole-inl.h:14-45),
`FisheyeDistortion::distortUsingExternalCoefficients` (distortion-fisheye-inl.h:31-63) and
`NullDistortion::distortUsingExternalCoefficients` (distortion-null.h:74-81), for every type of scalars, with exact real
numbers in place of `double`.  They are used with `double` and with jets, that is, numbers that carry their derivatives
with respect to `N` variables.  The template of `EquidistantDistortion` is declared (distortion-equidistant.h:69-73) and
not defined, and the other distortions have none.
-/

namespace Verif.Camera.Jets

open Verif (Outcome)
open Verif.Camera (Box Status minimumDepth)
open Classical

/-- What the templates use of `ScalarType`: conversion from `double`, arithmetic, the square root (in `norm`), `tan` and
`atan` of `jet_trigonometric` (distortion-fisheye-inl.h:9-28), and the number that comparisons look at. -/
class Scalar (α : Type) where
  ofReal : ℝ → α
  add : α → α → α
  mul : α → α → α
  div : α → α → α
  sqrt : α → α
  tan : α → α
  atan : α → α
  value : α → ℝ

/-- `double` (distortion-fisheye-inl.h:9-15 for `tan` and `atan`). -/
noncomputable instance : Scalar ℝ where
  ofReal x := x
  add x y := x + y
  mul x y := x * y
  div x y := x / y
  sqrt := Real.sqrt
  tan := Real.tan
  atan := Real.arctan
  value x := x

/-- `JetType<double, N>` (distortion-fisheye-inl.h:17-28): a number and its derivatives, which are `none` if they are not
finite. -/
structure Jet (N : Nat) where
  a : ℝ
  v : Option (Fin N → ℝ)

/-- The jet of a constant, `static_cast<ScalarType>(c)` (distortion-fisheye-inl.h:46).  Jets are not part of the
repository; arithmetic of jets, here and below, is the one of `ceres::Jet`. -/
def Jet.const {N : Nat} (c : ℝ) : Jet N := ⟨c, some 0⟩

/-- The sum of jets (used at camera-pinhole-inl.h:41-42). -/
noncomputable def Jet.add {N : Nat} (f g : Jet N) : Jet N := ⟨f.a + g.a, do some ((← f.v) + (← g.v))⟩

/-- The product of jets (used at camera-pinhole-inl.h:32-33). -/
noncomputable def Jet.mul {N : Nat} (f g : Jet N) : Jet N :=
  ⟨f.a * g.a, do
    let v ← f.v
    let w ← g.v
    some (f.a • w + g.a • v)⟩

/-- The quotient of jets (used at camera-pinhole-inl.h:30, distortion-fisheye-inl.h:49).  Dividing by zero leaves no
derivatives; the number itself is then not finite either and is not modelled. -/
noncomputable def Jet.div {N : Nat} (f g : Jet N) : Jet N :=
  ⟨f.a / g.a, if g.a = 0 then none else do
    let v ← f.v
    let w ← g.v
    some ((1 / g.a) • (v - (f.a / g.a) • w))⟩

/-- The square root of a jet, in `norm` (used at distortion-fisheye-inl.h:43): at zero the derivatives are not finite. -/
noncomputable def Jet.sqrt {N : Nat} (f : Jet N) : Jet N :=
  ⟨Real.sqrt f.a, if f.a = 0 then none else do
    let v ← f.v
    some ((1 / (2 * Real.sqrt f.a)) • v)⟩

/-- `jet_trigonometric::tan` (distortion-fisheye-inl.h:17-22). -/
noncomputable def Jet.tan {N : Nat} (f : Jet N) : Jet N :=
  let tan_a := Real.tan f.a
  let tmp := 1 + tan_a * tan_a
  ⟨tan_a, do some (tmp • (← f.v))⟩

/-- `jet_trigonometric::atan` (distortion-fisheye-inl.h:24-28). -/
noncomputable def Jet.atan {N : Nat} (f : Jet N) : Jet N :=
  let tmp := 1 / (1 + f.a * f.a)
  ⟨Real.arctan f.a, do some (tmp • (← f.v))⟩

/-- Jets as scalars; they compare by their numbers (used at distortion-fisheye-inl.h:45, 51). -/
noncomputable instance {N : Nat} : Scalar (Jet N) where
  ofReal := Jet.const
  add := Jet.add
  mul := Jet.mul
  div := Jet.div
  sqrt := Jet.sqrt
  tan := Jet.tan
  atan := Jet.atan
  value := Jet.a

variable {α : Type} [Scalar α]

open Scalar

/-- `point.norm()` (distortion-fisheye-inl.h:43). -/
def norm (p : α × α) : α := sqrt (add (mul p.1 p.1) (mul p.2 p.2))

/-- The factor of `FisheyeDistortion::distortUsingExternalCoefficients` (distortion-fisheye-inl.h:41-59). -/
noncomputable def fisheyeFactor (w r : α) : α :=
  if value (mul w w) < 1e-5 then ofReal 1
  else
    let mul2tanwby2 := mul (ofReal 2) (tan (div w (ofReal 2)))
    let mul2tanwby2byw := div mul2tanwby2 w
    if value (mul r r) < value (ofReal (α := α) 1e-5) then mul2tanwby2byw
    else div (atan (mul r mul2tanwby2)) (mul r w)

/-- `FisheyeDistortion::distortUsingExternalCoefficients` (distortion-fisheye-inl.h:31-63); `kNumOfParams` is 1
(distortion-fisheye.h:19). -/
noncomputable def fisheyeDistort (coefficients : List α) (p : α × α) : Outcome (α × α) :=
  match coefficients with
  | [w] =>
    let f := fisheyeFactor w (norm p)
    .ok (mul p.1 f, mul p.2 f)
  | _ => .abort

/-- The distortions that have a template that can be used (distortion-fisheye.h:64-67, distortion-null.h:74-81). -/
inductive Kind where
  | null
  | fisheye
deriving DecidableEq

/-- The distortion that the template of the camera calls.  Without distortion the coefficients are not looked at. -/
noncomputable def distort (kind : Kind) (coefficients : List α) (p : α × α) : Outcome (α × α) :=
  match kind with
  | .null => .ok p
  | .fisheye => fisheyeDistort coefficients p

/-- `isKeypointVisible` (camera-inl.h:16-25). -/
def visible (b : Box) (k : α × α) : Prop :=
  value k.1 ≥ value (ofReal (α := α) 0) ∧ value k.2 ≥ value (ofReal (α := α) 0) ∧
    value k.1 < value (ofReal (α := α) b.width) ∧ value k.2 < value (ofReal (α := α) b.height)

/-- `PinholeCamera::evaluateProjectionResult` (camera-pinhole-inl.h:47-65). -/
noncomputable def evaluate (b : Box) (k : α × α) (z : α) : Status :=
  if visible b k ∧ value z > minimumDepth then .visible
  else if ¬ visible b k ∧ value z > minimumDepth then .outside
  else if value z < 0 then .behind
  else .invalid

/-- `PinholeCamera::project3Functional<ScalarType, DistortionType>` (camera-pinhole-inl.h:14-45) of a camera whose
distortion is of the kind `own`, called with the kind `named` as `DistortionType`; `own = none` is a camera with a
distortion that has no template.  The cast to another type than the one the object has is undefined.  `kNumOfParams` is 4
(camera-pinhole.h:30).  At depth zero the keypoint is not finite, the sizes are checked as always, and the status does
not depend on the keypoint. -/
noncomputable def project (own : Option Kind) (named : Kind) (b : Box) (intrinsics coefficients : List α)
    (p : α × α × α) : Outcome (Status × Option (α × α)) :=
  match intrinsics with
  | [fu, fv, cu, cv] =>
    let z := p.2.2
    let rz := div (ofReal 1) z
    let keypoint := (mul p.1 rz, mul p.2.1 rz)
    if own = some named then do
      let keypoint ← distort named coefficients keypoint
      let out := (add (mul fu keypoint.1) cu, add (mul fv keypoint.2) cv)
      if value z = 0 then .ok (.invalid, none) else .ok (evaluate b out z, some out)
    else .ub
  | _ => .abort

end Verif.Camera.Jets
