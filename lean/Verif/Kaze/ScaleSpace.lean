import Verif.Kaze.Contrast
import Verif.Kaze.Fed
import Verif.Kaze.Aos
import Verif.Kaze.Response

/-!
# The nonlinear scale space

Model of `KAZE::KAZE` and `KAZE::Create_Nonlinear_Scale_Space` in `aslam_cv_detector/src/kaze/KAZE.cpp` and of
`gaussian_2D_convolution` in `aslam_cv_detector/src/kaze/nldiffusion_functions.cpp`, composed of the models of their parts.
Numbers of type `float` are real numbers; rounding is not modelled. Of OpenCV, `cv::GaussianBlur` and `cv::Scharr` are
modelled from their documentation. Images are not empty.
-/

namespace Verif.Kaze.ScaleSpace

open Verif (Outcome)
open Verif.Kaze.Diffusion (Img Kind conductivity nldSteps aosStep)
open Verif.Kaze.Response (Level levels times weigh filterX filterY)

/-- The options that the scale space depends on, KAZEConfig.h:49-91; `kind = none` is a number that is none of the
diffusivities. -/
structure Opts where
  soffset : ℝ
  sderivatives : ℝ
  perc : ℝ
  nbins : Nat
  omax : Int
  nsublevels : Int
  kind : Option Kind
  useFed : Bool

/-! ## Smoothing -/

/-- The size of the kernel, nldiffusion_functions.cpp:35-45, when both sizes are given as 0, as in all calls. The
conversion of a negative number to `size_t` has no defined result. -/
noncomputable def kernelSize (sigma : ℝ) : Outcome Nat :=
  let v : Int := ⌈2 * (1 + (sigma - 8 / 10) / (3 / 10))⌉
  if v < 0 then .ub
  else .ok (if v.toNat % 2 = 0 then v.toNat + 1 else v.toNat)

/-- The weight of element `i` before it is normalized, `cv::getGaussianKernel` as used by `cv::GaussianBlur` in
nldiffusion_functions.cpp:48. -/
noncomputable def weight (n : Nat) (sigma : ℝ) (i : Nat) : ℝ :=
  Real.exp (-((i : ℝ) - ((n : ℝ) - 1) / 2) ^ 2 / (2 * sigma ^ 2))

/-- The kernel of `cv::GaussianBlur` in nldiffusion_functions.cpp:48. -/
noncomputable def gaussKernel (n : Nat) (sigma : ℝ) : List ℝ :=
  (List.range n).map fun i => weight n sigma i / ((List.range n).map (weight n sigma)).sum

/-- `cv::BORDER_REPLICATE`, nldiffusion_functions.cpp:48: the pixel for position `p` of a row or column of `n` pixels. -/
def replicate (n : Nat) (p : Int) : Nat := if p < 0 then 0 else if (n : Int) ≤ p then n - 1 else p.toNat

/-- The filter along the rows, nldiffusion_functions.cpp:48. -/
noncomputable def blurX (k : List ℝ) (im : Img) : Img :=
  { im with px := fun y x => weigh k fun t => im.px y (replicate im.cols ((x : Int) + (t : Int) - ((k.length / 2 : Nat) : Int))) }

/-- The filter along the columns, nldiffusion_functions.cpp:48. -/
noncomputable def blurY (k : List ℝ) (im : Img) : Img :=
  { im with px := fun y x => weigh k fun t => im.px (replicate im.rows ((y : Int) + (t : Int) - ((k.length / 2 : Nat) : Int))) x }

/-- `gaussian_2D_convolution`, nldiffusion_functions.cpp:31-49. -/
noncomputable def gaussian (sigma : ℝ) (im : Img) : Outcome Img :=
  (kernelSize sigma).bind fun n => .ok (blurY (gaussKernel n sigma) (blurX (gaussKernel n sigma) im))

/-! ## Gradients -/

/-- `cv::Scharr` with `dx = 1`, KAZE.cpp:138 and nldiffusion_functions.cpp:145. -/
noncomputable def scharrX (im : Img) : Img := filterY [3, 10, 3] (filterX [-1, 0, 1] im)

/-- `cv::Scharr` with `dy = 1`, KAZE.cpp:139 and nldiffusion_functions.cpp:146. -/
noncomputable def scharrY (im : Img) : Img := filterY [-1, 0, 1] (filterX [3, 10, 3] im)

/-- `Lx*Lx + Ly*Ly` at a pixel, for example nldiffusion_functions.cpp:83. -/
noncomputable def gradSq (smooth : Img) (y x : Nat) : ℝ :=
  (scharrX smooth).px y x * (scharrX smooth).px y x + (scharrY smooth).px y x * (scharrY smooth).px y x

/-- The gradients for the contrast factor, without those on the border, nldiffusion_functions.cpp:149-157 and
165-172. -/
noncomputable def magnitudes (smooth : Img) : List ℝ :=
  (List.range (smooth.rows - 2)).flatMap fun y => (List.range (smooth.cols - 2)).map fun x => √(gradSq smooth (y + 1) (x + 1))

/-- `KAZE::Compute_KContrast`, KAZE.cpp:182-195. -/
noncomputable def contrast (o : Opts) (img : Img) : Outcome ℝ :=
  (gaussian o.sderivatives img).bind fun g => Contrast.kPercentile (magnitudes g) o.perc o.nbins

/-! ## Levels -/

/-- The steps for every level but the first, KAZE.cpp:71-81; `reordering_` is true, KAZE.cpp:29, and `tau` is empty at
first. -/
noncomputable def cycles : List ℝ → Outcome (List (List ℝ))
  | [] => .ok []
  | t :: r => (Fed.byProcessTime t 1 (1 / 4) true []).bind fun a => (cycles r).bind fun l => .ok (a.2 :: l)

/-- The constructor, KAZE.cpp:26-97: the times between the levels, each with its steps (none without FED). -/
noncomputable def construct (o : Opts) : Outcome (List (ℝ × List ℝ)) :=
  let ts := times (levels o.soffset o.omax o.nsublevels)
  if o.useFed then (cycles ts).bind fun l => .ok (ts.zip l) else .ok (ts.map fun t => (t, []))

/-- What a level of the scale space has, KAZEConfig.h:96-97. -/
structure Slice where
  lt : Img
  smooth : Img

open Classical in
/-- The image `Lflow`, KAZE.cpp:141-157, which was `old` before; `none` if it has values that are not numbers. -/
noncomputable def flow (kind : Option Kind) (k : ℝ) (smooth : Img) (old : Nat → Nat → ℝ) : Option (Nat → Nat → ℝ) :=
  match kind with
  | none => some old
  | some kd =>
    if ∀ y x, y < smooth.rows → x < smooth.cols → conductivity kd k (gradSq smooth y x) ≠ none then
      some fun y x => (conductivity kd k (gradSq smooth y x)).getD 0
    else none

/-- The loop over the levels, KAZE.cpp:131-174, from the image `prev` of the level before. If values are not numbers, the
rest is not followed. -/
noncomputable def evolve (o : Opts) (k : ℝ) : List (ℝ × List ℝ) → (Nat → Nat → ℝ) → Img → Outcome (Option (List Slice))
  | [], _, _ => .ok (some [])
  | (t, tau) :: r, old, prev =>
    (gaussian o.sderivatives prev).bind fun smooth =>
      match flow o.kind k smooth old with
      | none => .ok none
      | some c =>
        (if o.useFed then nldSteps c tau prev else aosStep c t prev).bind fun lt =>
          (evolve o k r c lt).bind fun rest => .ok (rest.map fun l => ⟨lt, smooth⟩ :: l)

/-- `KAZE::Create_Nonlinear_Scale_Space`, KAZE.cpp:100-180: the returned value and the levels, for the steps of the
constructor; `none` if there are values that are not numbers. Timing and output are left out. -/
noncomputable def create (o : Opts) (steps : List (ℝ × List ℝ)) (img : Img) : Outcome (Option (Int × List Slice)) :=
  if levels o.soffset o.omax o.nsublevels = [] then .ok (some (-1, []))
  else
    (gaussian o.soffset img).bind fun lt =>
    (gaussian o.sderivatives lt).bind fun smooth =>
    (contrast o img).bind fun k =>
    (evolve o k steps (fun _ _ => 0) lt).bind fun rest => .ok (rest.map fun l => (0, ⟨lt, smooth⟩ :: l))

/-- A detector is constructed and given an image, KAZE.cpp:26-180. -/
noncomputable def run (o : Opts) (img : Img) : Outcome (Option (Int × List Slice)) :=
  (construct o).bind fun steps => create o steps img

end Verif.Kaze.ScaleSpace
