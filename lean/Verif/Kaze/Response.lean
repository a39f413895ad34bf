import Verif.Kaze.Descriptor
import Verif.Kaze.Diffusion

/-!
# Levels of the scale space and the response of the detector

Model of `KAZE::Allocate_Memory_Evolution`, `KAZE::Compute_Multiscale_Derivatives` and `KAZE::Compute_Detector_Response`
in `aslam_cv_detector/src/kaze/KAZE.cpp`, and of the derivatives in
`aslam_cv_detector/src/kaze/nldiffusion_functions.cpp`. Numbers of type `float` are real numbers; rounding is not
modelled. Of OpenCV, `cv::sepFilter2D` and `cv::getDerivKernels` are modelled from their documentation.
-/

namespace Verif.Kaze.Response

open Verif (Outcome)
open Verif.Kaze.Diffusion (Img)

/-- What the levels of the scale space are allocated with, KAZEConfig.h:93-104. -/
structure Level where
  esigma : ℝ
  etime : ℝ
  sigmaSize : Int
  octave : Nat
  sublevel : Nat

/-- One level, KAZE.cpp:61-65. -/
noncomputable def level (soffset : ℝ) (nsublevels i j : Nat) : Level :=
  let esigma := soffset * (2 : ℝ) ^ ((j : ℝ) / (nsublevels : ℝ) + (i : ℝ))
  { esigma := esigma
    etime := 1 / 2 * (esigma * esigma)
    sigmaSize := Descriptor.fRound esigma
    octave := i
    sublevel := j }

/-- All levels, KAZE.cpp:49-68. -/
noncomputable def levels (soffset : ℝ) (omax nsublevels : Int) : List Level :=
  (List.range omax.toNat).flatMap fun i =>
    (List.range nsublevels.toNat).map fun j => level soffset nsublevels.toNat i j

/-- The times between neighbouring levels, KAZE.cpp:72-76. -/
noncomputable def times : List Level → List ℝ
  | a :: b :: r => (b.etime - a.etime) :: times (b :: r)
  | _ => []

/-- The kernel for one direction, nldiffusion_functions.cpp:233-252, with `order` the order of the derivative. The
elements are stored one after the other: for a kernel of length one they are the same element. -/
noncomputable def kernel (ksize : Nat) (norm w : ℝ) (order : Nat) : List ℝ :=
  let zeros : List ℝ := List.replicate ksize 0
  if order = 0 then ((zeros.set 0 norm).set (ksize / 2) (w * norm)).set (ksize - 1) norm
  else if order = 1 then ((zeros.set 0 (-1)).set (ksize / 2) 0).set (ksize - 1) 1
  else zeros

/-- The normalized kernels of Scharr, `cv::getDerivKernels` with the aperture 0 as called in
nldiffusion_functions.cpp:220; OpenCV asserts that exactly one derivative is asked for. -/
noncomputable def scharrKernels (dx dy : Nat) : Outcome (List ℝ × List ℝ) :=
  if dx + dy = 1 then
    let one (order : Nat) : List ℝ := if order = 1 then [-1, 0, 1] else [3 / 32, 10 / 32, 3 / 32]
    .ok (one dx, one dy)
  else .exc

/-- `compute_derivative_kernels`, nldiffusion_functions.cpp:213-254: the kernels for the columns and for the rows. The
scale is an `int` that is converted to `size_t`, and the size `3 + 2*(scale-1)` is computed without sign and converted to
`int`: for scales in the range of 31 bits this is `2*scale + 1`. A matrix of a negative size is refused by OpenCV. The
array `kerI` has 1000 elements. For the scale 0 the numbers are infinite: `none`. -/
noncomputable def derivativeKernels (dx dy : Nat) (scale : Int) : Outcome (Option (List ℝ × List ℝ)) :=
  let ksize : Int := 2 * scale + 1
  if scale = 1 then (scharrKernels dx dy).bind fun k => .ok (some k)
  else if ksize < 0 then .exc
  else if 1000 < ksize then .ub
  else if scale = 0 then .ok none
  else
    let w : ℝ := 10 / 3
    let norm : ℝ := 1 / (2 * (scale : ℝ) * (w + 2))
    .ok (some (kernel ksize.toNat norm w dx, kernel ksize.toNat norm w dy))

/-- The pixel that stands for position `p` of a row or column of `n` pixels, `cv::BORDER_REFLECT_101`, the default of
`cv::sepFilter2D` as called in nldiffusion_functions.cpp:209: the image is mirrored at the centre of its first and last
pixel, again and again. -/
def reflect (n : Nat) (p : Int) : Nat :=
  if n ≤ 1 then 0
  else
    let q := p % (2 * ((n : Int) - 1))
    if q < n then q.toNat else (2 * ((n : Int) - 1) - q).toNat

/-- The sum of the products of the elements of a kernel with values (nldiffusion_functions.cpp:209). -/
noncomputable def weigh (k : List ℝ) (f : Nat → ℝ) : ℝ := ((List.range k.length).map fun t => k.getD t 0 * f t).sum

/-- The filter along the rows, nldiffusion_functions.cpp:209. -/
noncomputable def filterX (k : List ℝ) (im : Img) : Img :=
  { im with px := fun y x => weigh k fun t => im.px y (reflect im.cols ((x : Int) + (t : Int) - ((k.length / 2 : Nat) : Int))) }

/-- The filter along the columns, nldiffusion_functions.cpp:209. -/
noncomputable def filterY (k : List ℝ) (im : Img) : Img :=
  { im with px := fun y x => weigh k fun t => im.px (reflect im.rows ((y : Int) + (t : Int) - ((k.length / 2 : Nat) : Int))) x }

/-- `compute_scharr_derivatives`, nldiffusion_functions.cpp:204-210; `none`: the values are not numbers. -/
noncomputable def derivative (dx dy : Nat) (scale : Int) (im : Img) : Outcome (Option Img) :=
  (derivativeKernels dx dy scale).bind fun k =>
    match k with
    | none => .ok none
    | some (kx, ky) => .ok (some (filterY ky (filterX kx im)))

/-- The derivatives of a level, KAZEConfig.h:94-95. -/
structure Derivs where
  Lx : Img
  Ly : Img
  Lxx : Img
  Lxy : Img
  Lyy : Img

/-- The product of a matrix and a number, KAZE.cpp:219-223. -/
noncomputable def scaleBy (a : ℝ) (im : Img) : Img := { im with px := fun y x => im.px y x * a }

/-- The next step, unless the values are not numbers any more (KAZE.cpp:213-217). -/
def andThen {α β : Type} (o : Outcome (Option α)) (f : α → Outcome (Option β)) : Outcome (Option β) :=
  o.bind fun v => match v with
    | none => .ok none
    | some a => f a

/-- `KAZE::Compute_Multiscale_Derivatives`, KAZE.cpp:197-228, for one level from its image `Lsmooth`. -/
noncomputable def multiscale (sigmaSize : Int) (smooth : Img) : Outcome (Option Derivs) :=
  andThen (derivative 1 0 sigmaSize smooth) fun lx =>
  andThen (derivative 0 1 sigmaSize smooth) fun ly =>
  andThen (derivative 1 0 sigmaSize lx) fun lxx =>
  andThen (derivative 0 1 sigmaSize ly) fun lyy =>
  andThen (derivative 0 1 sigmaSize lx) fun lxy =>
  .ok (some
    { Lx := scaleBy (sigmaSize : ℝ) lx
      Ly := scaleBy (sigmaSize : ℝ) ly
      Lxx := scaleBy ((sigmaSize * sigmaSize : Int) : ℝ) lxx
      Lxy := scaleBy ((sigmaSize * sigmaSize : Int) : ℝ) lxy
      Lyy := scaleBy ((sigmaSize * sigmaSize : Int) : ℝ) lyy })

/-- The image `Ldet` of a level, KAZE.cpp:242-251. -/
noncomputable def determinant (d : Derivs) : Img :=
  { d.Lxx with px := fun y x => d.Lxx.px y x * d.Lyy.px y x - d.Lxy.px y x * d.Lxy.px y x }

/-- `KAZE::Compute_Detector_Response`, KAZE.cpp:231-253, for one level. -/
noncomputable def response (sigmaSize : Int) (smooth : Img) : Outcome (Option Img) :=
  andThen (multiscale sigmaSize smooth) fun d => .ok (some (determinant d))

end Verif.Kaze.Response
