import Mathlib.Analysis.SpecialFunctions.Exp
import Mathlib.Analysis.SpecialFunctions.Pow.Real
import Verif.Base.Outcome

/-!
# Nonlinear diffusion of images

Model of `aslam_cv_detector/src/kaze/nldiffusion_functions.cpp`: conductivities, the explicit step and the contrast
factor. Numbers of type `float` are real numbers; rounding is not modelled. A conductivity that is not a number is
`none`.
-/

namespace Verif.Kaze.Diffusion

open Verif (Outcome)

/-- An image of one channel, `cv::Mat` of type `CV_32F`: row, column. Values out of the image are not looked at. -/
structure Img where
  rows : Nat
  cols : Nat
  px : Nat → Nat → ℝ

/-- The kinds of conductivity, KAZE.cpp:142-157. -/
inductive Kind
  | pmG1
  | pmG2
  | weickert
  | charbonnier

/-- The conductivity at a pixel from the squared gradient `Lx*Lx + Ly*Ly` and the contrast factor:
`pm_g1`, nldiffusion_functions.cpp:58-71, `pm_g2`, 74-85, `weickert_diffusivity`, 88-104, `charbonnier_diffusivity`,
107-121. With `k = 0` the factor `inv_k` is infinite: then a squared gradient of zero gives a value that is not a number,
and any other one gives zero in all four functions. `-3.315/0` is minus infinity, its exponential is zero. -/
noncomputable def conductivity (kind : Kind) (k g : ℝ) : Option ℝ :=
  if k = 0 then
    if g = 0 then none else some 0
  else
    let inv := 1 / (k * k)
    match kind with
    | .pmG1 => some (Real.exp (-inv * g))
    | .pmG2 => some (1 / (1 + inv * g))
    | .weickert =>
      let dL := inv * g
      if dL = 0 then some 1 else some (1 - Real.exp (-(3315 / 1000) / (dL * dL * dL * dL)))
    | .charbonnier => some (1 / √(1 + inv * g))

/-- The change in the interior of the image, nldiffusion_functions.cpp:276-281. -/
noncomputable def interior (c L : Nat → Nat → ℝ) (s : ℝ) (y x : Nat) : ℝ :=
  let xpos := (c y x + c y (x + 1)) * (L y (x + 1) - L y x)
  let xneg := (c y (x - 1) + c y x) * (L y x - L y (x - 1))
  let ypos := (c y x + c (y + 1) x) * (L (y + 1) x - L y x)
  let yneg := (c (y - 1) x + c y x) * (L y x - L (y - 1) x)
  1 / 2 * s * (xpos - xneg + ypos - yneg)

/-- The change in the first and in the last row, nldiffusion_functions.cpp:285-332; `y'` is the row next to it. -/
noncomputable def borderRow (cols : Nat) (c L : Nat → Nat → ℝ) (s : ℝ) (y y' x : Nat) : ℝ :=
  if x = 0 then
    let xpos := (c y 0 + c y 1) * (L y 1 - L y 0)
    let ypos := (c y 0 + c y' 0) * (L y' 0 - L y 0)
    1 / 2 * s * (xpos + ypos)
  else if x = cols - 1 then
    let xneg := (c y (x - 1) + c y x) * (L y x - L y (x - 1))
    let ypos := (c y x + c y' x) * (L y' x - L y x)
    1 / 2 * s * (-xneg + ypos)
  else
    let xpos := (c y x + c y (x + 1)) * (L y (x + 1) - L y x)
    let xneg := (c y (x - 1) + c y x) * (L y x - L y (x - 1))
    let ypos := (c y x + c y' x) * (L y' x - L y x)
    1 / 2 * s * (xpos - xneg + ypos)

/-- The change in the first and in the last column, nldiffusion_functions.cpp:335-354. -/
noncomputable def firstCol (c L : Nat → Nat → ℝ) (s : ℝ) (y : Nat) : ℝ :=
  let xpos := (c y 0 + c y 1) * (L y 1 - L y 0)
  let ypos := (c y 0 + c (y + 1) 0) * (L (y + 1) 0 - L y 0)
  let yneg := (c (y - 1) 0 + c y 0) * (L y 0 - L (y - 1) 0)
  1 / 2 * s * (xpos + ypos - yneg)

/-- The change in the last column, nldiffusion_functions.cpp:335-354. -/
noncomputable def lastCol (cols : Nat) (c L : Nat → Nat → ℝ) (s : ℝ) (y : Nat) : ℝ :=
  let xneg := (c y (cols - 2) + c y (cols - 1)) * (L y (cols - 1) - L y (cols - 2))
  let ypos := (c y (cols - 1) + c (y + 1) (cols - 1)) * (L (y + 1) (cols - 1) - L y (cols - 1))
  let yneg := (c (y - 1) (cols - 1) + c y (cols - 1)) * (L y (cols - 1) - L (y - 1) (cols - 1))
  1 / 2 * s * (-xneg + ypos - yneg)

/-- The image `Lstep`, nldiffusion_functions.cpp:259-354, for an image of two rows and columns or more. -/
noncomputable def lstep (rows cols : Nat) (c L : Nat → Nat → ℝ) (s : ℝ) (y x : Nat) : ℝ :=
  if y = 0 then borderRow cols c L s 0 1 x
  else if y = rows - 1 then borderRow cols c L s (rows - 1) (rows - 2) x
  else if x = 0 then firstCol c L s y
  else if x = cols - 1 then lastCol cols c L s y
  else interior c L s y x

/-- `nld_step_scalar`, nldiffusion_functions.cpp:257-361. The second and the last but one row and column are read in any
case: without them the behaviour is undefined. The conductivities are an image of the same size. -/
noncomputable def nldStep (c : Nat → Nat → ℝ) (s : ℝ) (L : Img) : Outcome Img :=
  if L.rows < 2 ∨ L.cols < 2 then .ub
  else .ok { L with px := fun y x => L.px y x + lstep L.rows L.cols c L.px s y x }

/-- The inner steps of a level, KAZE.cpp:160-163. -/
noncomputable def nldSteps (c : Nat → Nat → ℝ) : List ℝ → Img → Outcome Img
  | [], L => .ok L
  | s :: r, L => (nldStep c s L).bind fun L' => nldSteps c r L'

end Verif.Kaze.Diffusion
