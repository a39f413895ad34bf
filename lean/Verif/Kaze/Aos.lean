import Verif.Kaze.Diffusion

/-!
# Additive operator splitting

Model of the implicit diffusion step of `aslam_cv_detector/src/kaze/KAZE.cpp`. Numbers of type `float` are real numbers.
-/

namespace Verif.Kaze.Diffusion

open Verif (Outcome)

/-- The pivots of the LU decomposition, KAZE.cpp:2254-2256 and 2263-2271, for one column of the matrices. -/
noncomputable def pivot (a b : Nat → ℝ) : Nat → ℝ
  | 0 => a 0
  | k + 1 => a (k + 1) - b k / pivot a b k * b k

/-- The forward substitution, KAZE.cpp:2258-2260 and 2273-2275. -/
noncomputable def forward (a b d : Nat → ℝ) : Nat → ℝ
  | 0 => d 0
  | k + 1 => d (k + 1) - b k / pivot a b k * forward a b d k

/-- The backward substitution, KAZE.cpp:2278-2287: the element `j` places before the last of `n`. -/
noncomputable def backward (a b d : Nat → ℝ) (n : Nat) : Nat → ℝ
  | 0 => forward a b d (n - 1) / pivot a b (n - 1)
  | j + 1 => (forward a b d (n - 2 - j) - b (n - 2 - j) * backward a b d n j) / pivot a b (n - 2 - j)

/-- `KAZE::Thomas`, KAZE.cpp:2232-2289, for one column. -/
noncomputable def thomas (a b d : Nat → ℝ) (n i : Nat) : ℝ := backward a b d n (n - 1 - i)

/-- The diagonal from the sums `q` of neighbouring conductivities, KAZE.cpp:2177-2191 and 2211-2224 with 2195 and 2220. -/
noncomputable def diag (q : Nat → ℝ) (s : ℝ) (n i : Nat) : ℝ :=
  1 + s * (if i = 0 then q 0 else if i = n - 1 then q (n - 2) else q (i - 1) + q i)

/-- `KAZE::AOS_Rows`, KAZE.cpp:2168-2200: the image `Lty_`. -/
noncomputable def aosRows (rows : Nat) (c : Nat → Nat → ℝ) (s : ℝ) (L : Nat → Nat → ℝ) (i j : Nat) : ℝ :=
  let q := fun k => c k j + c (k + 1) j
  thomas (diag q s rows) (fun k => -s * q k) (fun k => L k j) rows i

/-- `KAZE::AOS_Columns`, KAZE.cpp:2203-2229: the image `Ltx_` after the transposition in 2164. -/
noncomputable def aosCols (cols : Nat) (c : Nat → Nat → ℝ) (s : ℝ) (L : Nat → Nat → ℝ) (i j : Nat) : ℝ :=
  let q := fun k => c i k + c i (k + 1)
  thomas (diag q s cols) (fun k => -s * q k) (fun k => L i k) cols j

/-- `KAZE::AOS_Step_Scalar`, KAZE.cpp:2145-2165. The image `Ltx_` is allocated with the size of the image, KAZE.cpp:85,
but `Thomas` stores the solution for the transposed image in it: with more columns than rows this is out of its memory,
with more rows than columns the sum in 2164 is of images of different sizes, which OpenCV refuses with an exception. The
vectors `qr_` and `qc_` have one row or column less than the image, and their first one is read. -/
noncomputable def aosStep (c : Nat → Nat → ℝ) (s : ℝ) (L : Img) : Outcome Img :=
  if L.rows < 2 ∨ L.cols < 2 then .ub
  else if L.rows < L.cols then .ub
  else if L.cols < L.rows then .exc
  else .ok { L with px := fun i j => 1 / 2 * (aosRows L.rows c s L.px i j + aosCols L.cols c s L.px i j) }

end Verif.Kaze.Diffusion
