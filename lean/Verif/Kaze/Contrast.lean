import Mathlib.Data.Real.Basic
import Mathlib.Algebra.Order.Floor.Semiring
import Mathlib.Algebra.Order.Archimedean.Real.Basic
import Verif.Base.Outcome

/-!
# Contrast factor and scaling of images

Model of `compute_k_percentile` in `aslam_cv_detector/src/kaze/nldiffusion_functions.cpp` and of the scaling of images in
`aslam_cv_detector/src/kaze/utils.cpp`. Numbers of type `float` are real numbers.
-/

namespace Verif.Kaze.Contrast

open Verif (Outcome)

/-- The largest gradient, nldiffusion_functions.cpp:149-163, from the magnitudes at the pixels that are not on the border
(the smoothing and the derivatives of OpenCV are not modelled). -/
noncomputable def hmax (g : List ℝ) : ℝ := g.foldl (fun h m => if h < m then m else h) 0

/-- The bin of a gradient, nldiffusion_functions.cpp:175-179. -/
noncomputable def binOf (top : ℝ) (nbins : Nat) (m : ℝ) : Nat :=
  let nbin := ⌊(nbins : ℝ) * (m / top)⌋₊
  if nbin = nbins then nbin - 1 else nbin

/-- The histogram: the number of gradients in bin `k`, nldiffusion_functions.cpp:135-137 and 165-184. -/
noncomputable def hist (g : List ℝ) (nbins k : Nat) : Nat :=
  g.countP fun m => decide (m ≠ 0) && decide (binOf (hmax g) nbins m = k)

/-- The number of gradients that are not zero, nldiffusion_functions.cpp:182. -/
noncomputable def npoints (g : List ℝ) : Nat := g.countP fun m => decide (m ≠ 0)

/-- The loop over the bins, nldiffusion_functions.cpp:190-191: the final `k` and `nelements`. -/
noncomputable def climb (h : Nat → Nat) (nthreshold nbins : Nat) : Nat → Nat → Nat → Nat × Nat
  | 0, k, nelements => (k, nelements)
  | fuel + 1, k, nelements =>
    if nelements < nthreshold ∧ k < nbins then climb h nthreshold nbins fuel (k + 1) (nelements + h k)
    else (k, nelements)

/-- `compute_k_percentile`, nldiffusion_functions.cpp:123-201. Without bins the first gradient that is not zero is
counted out of the histogram; without bins and without such gradients the result is not a number, here it is zero. -/
noncomputable def kPercentile (g : List ℝ) (perc : ℝ) (nbins : Nat) : Outcome ℝ :=
  if nbins = 0 ∧ 0 < npoints g then .ub
  else
    let nthreshold := ⌊(npoints g : ℝ) * perc⌋₊
    let (k, nelements) := climb (hist g nbins) nthreshold nbins (nbins + 1) 0 0
    if nelements < nthreshold then .ok (3 / 100)
    else .ok (hmax g * ((k : ℝ) / (nbins : ℝ)))

/-- `compute_min_32F`, utils.cpp:33-46. -/
noncomputable def computeMin (src : List ℝ) : ℝ := src.foldl (fun a v => if v < a then v else a) 1000

/-- `compute_max_32F`, utils.cpp:49-62. -/
noncomputable def computeMax (src : List ℝ) : ℝ := src.foldl (fun a v => if a < v then v else a) 0

/-- `convert_scale`, utils.cpp:65-72, and `copy_and_convert_scale`, 75-83: the pixels, `none` if they are not numbers
any more because they are divided by zero. -/
noncomputable def convertScale (src : List ℝ) : Option (List ℝ) :=
  let d := src.map fun v => v - computeMin src
  let m := computeMax d
  if m = 0 ∧ src ≠ [] then none else some (d.map fun v => v / m)

end Verif.Kaze.Contrast
