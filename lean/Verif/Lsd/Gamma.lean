import Mathlib.Analysis.SpecialFunctions.Log.Basic
import Mathlib.Analysis.SpecialFunctions.Trigonometric.DerivHyp

/-!
# The logarithm of the gamma function

Models `log_gamma` of `aslam_cv_detector/src/lsd/lsd-opencv.cc`. Floating point numbers are exact reals.
-/

namespace Verif.Lsd

/-- lsd-opencv.cc:146-150: `log_gamma_windschitl`. -/
noncomputable def windschitl (x : ℝ) : ℝ :=
  0.918938533204673 + (x - 0.5) * Real.log x - x + 0.5 * x * Real.log (x * Real.sinh (1 / x) + 1 / (810 * x ^ 6))

/-- lsd-opencv.cc:159-161: the coefficients. -/
noncomputable def lanczosQ : List ℝ :=
  [75122.6331530, 80916.6278952, 36308.2951477, 8687.24529705, 1168.92649479, 83.8676043424, 2.50662827511]

/-- lsd-opencv.cc:164-168: the loop, from `n` on, with the coefficients that are left. -/
noncomputable def lanczosLoop (x : ℝ) : List ℝ → Nat → ℝ → ℝ → ℝ × ℝ
  | [], _, a, b => (a, b)
  | q :: qs, n, a, b => lanczosLoop x qs (n + 1) (a - Real.log (x + n)) (b + q * x ^ n)

/-- lsd-opencv.cc:157-170: `log_gamma_lanczos`. -/
noncomputable def lanczos (x : ℝ) : ℝ :=
  let r := lanczosLoop x lanczosQ 0 ((x + 0.5) * Real.log (x + 5.5) - (x + 5.5)) 0
  r.1 + Real.log r.2

open scoped Classical in
/-- lsd-opencv.cc:82: the macro `log_gamma`. -/
noncomputable def logGamma (x : ℝ) : ℝ := if 15 < x then windschitl x else lanczos x

end Verif.Lsd
