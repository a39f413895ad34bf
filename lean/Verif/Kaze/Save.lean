import Mathlib.Algebra.Order.Floor.Ring
import Mathlib.Data.Real.Archimedean
import Verif.Base.Decimal
import Verif.Kaze.Contrast

/-!
Writing the levels of the scale space and the responses of the detector as pictures: `KAZE::Save_Scale_Space` and
`KAZE::Save_Detector_Responses`, aslam_cv_detector/src/kaze/KAZE.cpp:2293-2318.  Images are the list of their values, exact
numbers instead of floats.  A picture is what is given to `cv::imwrite`; that the JPEG file loses some of it, and that the
folder may be missing, is not modelled.
-/

namespace Verif.Kaze.Save

open Verif.Decimal (natString)
open Verif.Kaze.Contrast (convertScale)

/-- An image of floats; `none` if its values are not numbers any more (`cv::Mat`, TEvolution in KAZEConfig.h:93-109). -/
abbrev Image := Option (List ℝ)

/-- The two images of `TEvolution` that are written (KAZEConfig.h:93-109: `Lt` and `Ldet`); the others are left out. -/
structure Level where
  Lt : Image
  Ldet : Image

/-- The name of a file. -/
abbrev Name := List Char

/-- What was given to `cv::imwrite` last for each name: `none` if nothing was, `some none` for a picture whose values come
from numbers that are not numbers (KAZE.cpp:2302, 2316). -/
abbrev Disk := Name → Option (Option (List ℤ))

/-- `cvRound` within `convertTo` (KAZE.cpp:2300, 2314): to the nearest whole number, to the even one in the middle. -/
noncomputable def roundEven (x : ℝ) : ℤ :=
  if x - ⌊x⌋ < 1 / 2 then ⌊x⌋
  else if 1 / 2 < x - ⌊x⌋ then ⌊x⌋ + 1
  else if ⌊x⌋ % 2 = 0 then ⌊x⌋ else ⌊x⌋ + 1

/-- `convertTo(img_aux, CV_8U, 255.0, 0)` for one value: `saturate_cast<uchar>` (KAZE.cpp:2300, 2314). -/
noncomputable def grey (v : ℝ) : ℤ := max 0 (min 255 (roundEven (255 * v)))

/-- `%02ld` (KAZE.cpp:2301, 2315). -/
def pad2 (n : Nat) : List Char := if n < 10 then '0' :: natString n else natString n

/-- What all names begin with (KAZE.cpp:2301, 2315). -/
def folder : Name := "../output/images/nl_".toList

/-- `sprintf(outputFile, "../output/images/nl_evolution_%02ld.jpg", i)` (KAZE.cpp:2301); the buffer of 500 bytes is large
enough for every index. -/
def evolutionName (i : Nat) : Name :=
  folder ++ (['e', 'v', 'o', 'l', 'u', 't', 'i', 'o', 'n', '_'] ++ (pad2 i ++ ".jpg".toList))

/-- `sprintf(outputFile, "../output/images/nl_detector_%02ld.jpg", i)` (KAZE.cpp:2315). -/
def detectorName (i : Nat) : Name :=
  folder ++ (['d', 'e', 't', 'e', 'c', 't', 'o', 'r', '_'] ++ (pad2 i ++ ".jpg".toList))

/-- `convert_scale` on the image of a level (KAZE.cpp:2299, 2313): what is not a number stays so. -/
noncomputable def rescale (im : Image) : Image := im.bind convertScale

/-- `convertTo` (KAZE.cpp:2300, 2314). -/
noncomputable def picture (im : Image) : Option (List ℤ) := im.map fun l => l.map grey

/-- `cv::imwrite` (KAZE.cpp:2302, 2316). -/
def imwrite (d : Disk) (n : Name) (p : Option (List ℤ)) : Disk := fun m => if m = n then some p else d m

/-- The loop of `Save_Scale_Space` from index `i` on (KAZE.cpp:2298-2303). -/
noncomputable def saveScaleFrom : Nat → List Level → Disk → List Level × Disk
  | _, [], d => ([], d)
  | i, L :: r, d =>
    let lt := rescale L.Lt
    let rest := saveScaleFrom (i + 1) r (imwrite d (evolutionName i) (picture lt))
    ({ L with Lt := lt } :: rest.1, rest.2)

/-- `Save_Scale_Space` (KAZE.cpp:2293-2304). -/
noncomputable def saveScaleSpace (ls : List Level) (d : Disk) : List Level × Disk := saveScaleFrom 0 ls d

/-- The loop of `Save_Detector_Responses` from index `i` on (KAZE.cpp:2312-2317). -/
noncomputable def saveDetectorFrom : Nat → List Level → Disk → List Level × Disk
  | _, [], d => ([], d)
  | i, L :: r, d =>
    let ldet := rescale L.Ldet
    let rest := saveDetectorFrom (i + 1) r (imwrite d (detectorName i) (picture ldet))
    ({ L with Ldet := ldet } :: rest.1, rest.2)

/-- `Save_Detector_Responses` (KAZE.cpp:2307-2318). -/
noncomputable def saveDetectorResponses (ls : List Level) (d : Disk) : List Level × Disk := saveDetectorFrom 0 ls d

end Verif.Kaze.Save
