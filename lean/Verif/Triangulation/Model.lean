import Mathlib.LinearAlgebra.Matrix.Rank
import Mathlib.Data.Real.Basic

/-!
# Triangulation

Model of `aslam_cv_triangulation/src/triangulation.cc` in exact real arithmetic.  Vectors have type `V`, rows of the
stacked systems are indexed by (measurement, coordinate) instead of `3 * i + k`, columns by a coordinate of the point
or a measurement.  The QR and LDLT decompositions of Eigen are parameters.
-/

namespace Verif.Triangulation

open Matrix

/-- `Eigen::Vector3d` with exact reals (triangulation.cc:38-41). -/
abbrev V := Fin 3 → ℝ
/-- `Eigen::Matrix3d` with exact reals (triangulation.cc:34-40). -/
abbrev M3 := Matrix (Fin 3) (Fin 3) ℝ

/-- `aslam::Transformation` (minkindr): a rotation matrix and a position (an argument at triangulation.cc:17-31). -/
structure Pose where
  R : M3
  p : V

/-- `T1 * T2`. -/
def Pose.mul (a b : Pose) : Pose := ⟨a.R * b.R, a.R *ᵥ b.p + a.p⟩

/-- `T.inverse()` (used at triangulation.cc:191). -/
def Pose.inverse (a : Pose) : Pose := ⟨a.Rᵀ, -(a.Rᵀ *ᵥ a.p)⟩

/-- `T * v` (used at triangulation.cc:142-151). -/
def Pose.act (a : Pose) (v : V) : V := a.R *ᵥ v + a.p

/-- `TriangulationResult::Status` (triangulation.h:16-25). -/
inductive Status where
  | successful
  | tooFew
  | unobservable
  | uninitialized
deriving DecidableEq

/-- `Eigen::ColPivHouseholderQR` with the threshold that the code sets: the rank it reports and the solution
(triangulation.cc:47-58, 142-151). -/
structure QR (m c : Type) where
  rank : Matrix m c ℝ → Nat
  solve : Matrix m c ℝ → (m → ℝ) → c → ℝ

/-- `size_t` subtraction (triangulation.cc:313-361). -/
def subSize (a b : Nat) : Nat := (a + 2 ^ 64 - b) % 2 ^ 64

/-! ## From normalised measurements -/

/-- The ray of a normalised measurement in the camera (triangulation.cc:38-39). -/
def ray (m : ℝ × ℝ) : V := ![m.1, m.2, 1]

/-- The matrix `A` from the directions (triangulation.cc:42-43, 136-138). -/
def systemA {n : Nat} (d : Fin n → V) : Matrix (Fin n × Fin 3) (Fin 3 ⊕ Fin n) ℝ
  | (i, k), .inl l => if k = l then 1 else 0
  | (i, k), .inr j => if i = j then -d i k else 0

/-- The vector `b` from the centers (triangulation.cc:44, 139). -/
def systemB {n : Nat} (c : Fin n → V) : Fin n × Fin 3 → ℝ := fun r => c r.1 r.2

/-- The part after assembling (triangulation.cc:47-58, 142-151): status and point, if written. -/
def solveSystem {n : Nat} (q : QR (Fin n × Fin 3) (Fin 3 ⊕ Fin n)) (d c : Fin n → V) : Status × Option V :=
  if subSize (q.rank (systemA d)) n < 3 then (.unobservable, none)
  else (.successful, some fun k => q.solve (systemA d) (systemB c) (.inl k))

/-- `linearTriangulateFromNViews` with normalised measurements (triangulation.cc:17-59); the check of the sizes holds
by typing. -/
def nViews {n : Nat} (q : QR (Fin n × Fin 3) (Fin 3 ⊕ Fin n)) (measurements : Fin n → ℝ × ℝ) (T_G_B : Fin n → Pose)
    (T_B_C : Pose) : Status × Option V :=
  if n < 2 then (.tooFew, none)
  else
    solveSystem q (fun i => (T_G_B i).R *ᵥ (T_B_C.R *ᵥ ray (measurements i)))
      (fun i => (T_G_B i).p + (T_G_B i).R *ᵥ T_B_C.p)

/-- `linearTriangulateFromNViewsMultiCam` (triangulation.cc:110-152); `none`: the check of a camera index fails. -/
def nViewsMultiCam {n k : Nat} (q : QR (Fin n × Fin 3) (Fin 3 ⊕ Fin n)) (measurements : Fin n → ℝ × ℝ)
    (camera : Fin n → Nat) (T_G_B : Fin n → Pose) (T_B_C : Fin k → Pose) : Option (Status × Option V) :=
  if n < 2 then some (.tooFew, none)
  else if h : ∀ i, camera i < k then
    some (solveSystem q (fun i => (T_G_B i).R *ᵥ ((T_B_C ⟨camera i, h i⟩).R *ᵥ ray (measurements i)))
      (fun i => (T_G_B i).act (T_B_C ⟨camera i, h i⟩).p))
  else none

/-! ## From bearing vectors -/

/-- `BiD` (triangulation.cc:91-92), by columns; a bearing vector of length zero gives infinities in the code. -/
noncomputable def biD {n : Nat} (t : Fin n → V) (i : Fin n) : V := fun k => t i k * (t i ⬝ᵥ t i)⁻¹

/-- `AxtAx` (triangulation.cc:93-94). -/
noncomputable def axtAx {n : Nat} (t : Fin n → V) : M3 := fun k l => (if k = l then (n : ℝ) else 0) - ∑ i, biD t i k * t i l

/-- `Axtbx` (triangulation.cc:95-96). -/
noncomputable def axtbx {n : Nat} (t p : Fin n → V) : V := fun k => (∑ i, p i k) - ∑ i, biD t i k * (t i ⬝ᵥ p i)

open Classical in
/-- `linearTriangulateFromNViews` with bearing vectors (triangulation.cc:61-108); `none`: a bearing vector is zero, and
what follows is computed with infinities. -/
noncomputable def nViewsBearing {n : Nat} (q : QR (Fin 3) (Fin 3)) (t_G_bv p_G_C : Fin n → V) : Option (Status × Option V) :=
  if n < 2 then some (.tooFew, none)
  else if ∃ i, t_G_bv i ⬝ᵥ t_G_bv i = 0 then none
  else if q.rank (axtAx t_G_bv) < 3 then some (.unobservable, none)
  else some (.successful, some (q.solve (axtAx t_G_bv) (axtbx t_G_bv p_G_C)))

/-! ## Gauss-Newton -/

/-- What is computed before the iterations (triangulation.cc:182-198): the rotation and the position of the first
camera's frame as the code has them, and for each view `R_Ci_Cn`, `p_Ci_Cn`. -/
structure Cache (n : Nat) where
  R_Cn_G : M3
  p_G_Cn : V
  R_Ci_Cn : Fin n → M3
  p_Ci_Cn : Fin n → V

/-- `T_Ci_G` (triangulation.cc:191). -/
def poseCiG (T_G_B T_B_C : Pose) : Pose := T_B_C.inverse.mul T_G_B.inverse

/-- The loop over the views: the pose of each camera relative to the first view (triangulation.cc:182-198). -/
def cache {n : Nat} (first : Fin n) (T_G_B : Fin n → Pose) (T_B_C : Pose) : Cache n :=
  let T_Cn_G := T_B_C.inverse.mul (T_G_B first).inverse
  { R_Cn_G := T_Cn_G.R
    p_G_Cn := T_Cn_G.p
    R_Ci_Cn := fun i => (poseCiG (T_G_B i) T_B_C).R * T_Cn_G.Rᵀ
    p_Ci_Cn := fun i =>
      (poseCiG (T_G_B i) T_B_C).R *ᵥ T_Cn_G.p - (poseCiG (T_G_B i) T_B_C).R *ᵥ (poseCiG (T_G_B i) T_B_C).inverse.p }

/-- `h_i` (triangulation.cc:216-217) for the variables `(alpha, beta, rho)`. -/
def predicted {n : Nat} (C : Cache n) (s : V) (i : Fin n) : V := C.R_Ci_Cn i *ᵥ ![s 0, s 1, 1] + s 2 • C.p_Ci_Cn i

/-- The residuals (triangulation.cc:218-222), by measurement; defined if `h_i(2)` is not zero. -/
noncomputable def residual {n : Nat} (C : Cache n) (meas : Fin n → ℝ × ℝ) (s : V) (i : Fin n) : ℝ × ℝ :=
  let h := predicted C s i
  ((meas i).1 - h 0 / h 2, (meas i).2 - h 1 / h 2)

/-- The rows of the Jacobian (triangulation.cc:224-242). -/
noncomputable def jacobian {n : Nat} (C : Cache n) (s : V) (i : Fin n) : V × V :=
  let h := predicted C s i
  let ja := C.R_Ci_Cn i *ᵥ ![1, 0, 0]
  let jb := C.R_Ci_Cn i *ᵥ ![0, 1, 0]
  let jr := C.p_Ci_Cn i
  let row0 : V → ℝ := fun j => -1 / h 2 * j 0 + h 0 / (h 2 * h 2) * j 2
  let row1 : V → ℝ := fun j => -1 / h 2 * j 1 + h 1 / (h 2 * h 2) * j 2
  (![row0 ja, row0 jb, row0 jr], ![row1 ja, row1 jb, row1 jr])

/-- `jacobian.transpose() * jacobian` (triangulation.cc:246). -/
noncomputable def jtj {n : Nat} (J : Fin n → V × V) : M3 :=
  fun k l => ∑ i, ((J i).1 k * (J i).1 l + (J i).2 k * (J i).2 l)

/-- `jacobian.transpose() * residuals` (triangulation.cc:247). -/
noncomputable def jtr {n : Nat} (J : Fin n → V × V) (r : Fin n → ℝ × ℝ) : V :=
  fun k => ∑ i, ((J i).1 k * (r i).1 + (J i).2 k * (r i).2)

/-- `squaredNorm` of the residuals (triangulation.cc:254). -/
noncomputable def squaredNorm {n : Nat} (r : Fin n → ℝ × ℝ) : ℝ := ∑ i, ((r i).1 * (r i).1 + (r i).2 * (r i).2)

/-- One iteration (triangulation.cc:204-256) with `ldlt` solving the normal equations. -/
noncomputable def iterate {n : Nat} (ldlt : M3 → V → V) (C : Cache n) (meas : Fin n → ℝ × ℝ) (s : V) : V :=
  let J := jacobian C s
  s - ldlt (jtj J) (jtr J (residual C meas s))

open Classical in
/-- The loop (triangulation.cc:202-257), with the norms of the last two residuals and the iterations left; `none`: the
depth of a predicted measurement is zero and the rest is computed with infinities. -/
noncomputable def gnLoop {n : Nat} (ldlt : M3 → V → V) (C : Cache n) (meas : Fin n → ℝ × ℝ) :
    Nat → ℝ → ℝ → V → Option V
  | 0, _, _, s => some s
  | k + 1, last, norm, s =>
    if last - norm > 1e-5 then
      if ∃ i, predicted C s i 2 = 0 then none
      else gnLoop ldlt C meas k norm (squaredNorm (residual C meas s)) (iterate ldlt C meas s)
    else some s

/-- The point from the variables (triangulation.cc:258-260). -/
noncomputable def gnPoint {n : Nat} (C : Cache n) (s : V) : V := (1 / s 2) • (C.R_Cn_Gᵀ *ᵥ ![s 0, s 1, 1]) + C.p_G_Cn

/-- `iterativeGaussNewtonTriangulateFromNViews` (triangulation.cc:158-262); the point is `none` if it is not finite. -/
noncomputable def gaussNewton {n : Nat} (ldlt : M3 → V → V) (meas : Fin n → ℝ × ℝ) (T_G_B : Fin n → Pose) (T_B_C : Pose) :
    Status × Option V :=
  if h : n < 2 then (.tooFew, none)
  else
    let C := cache ⟨0, by omega⟩ T_G_B T_B_C
    (.successful, (gnLoop ldlt C meas 10 1000 100 0).bind fun s => if s 2 = 0 then none else some (gnPoint C s))

/-! ## Feature tracks -/

/-- What is used of an observation of a track: the ray that its camera back-projects its keypoint to, and the mounting
of its camera (`get_T_C_B`, keypoint-identifier.h) (triangulation.cc:264-311). -/
structure Observation where
  ray : V
  T_C_B : Pose

/-- `triangulateFeatureTrack` (triangulation.cc:264-311): the arguments it gives to `linearTriangulateFromNViews`; rays
with a third coordinate of zero give infinities in the code.  `none`: a check of the length fails. -/
noncomputable def trackArguments (obs : List Observation) (T_W_B : List Pose) :
    Option (List (ℝ × ℝ) × List Pose × Pose) :=
  match obs with
  | [] => none
  | first :: _ =>
    if 1 < obs.length ∧ obs.length = T_W_B.length then
      some (obs.map fun o => (o.ray 0 / o.ray 2, o.ray 1 / o.ray 2), T_W_B, first.T_C_B.inverse)
    else none

/-- The loop of `fastTriangulateFeatureTrack` (triangulation.cc:334-349): every observation is written to column
`index`, which stays 0. -/
def fastLoop (T_W_B : List Pose) (index : Nat) : List Observation → List V × List V → List V × List V
  | [], cols => cols
  | o :: os, cols =>
    match T_W_B[index]? with
    | none => cols
    | some T =>
      let T_W_C := T.mul o.T_C_B.inverse
      fastLoop T_W_B index os (cols.1.set index (T_W_C.R *ᵥ o.ray), cols.2.set index T_W_C.p)

/-- `fastTriangulateFeatureTrack` (triangulation.cc:313-361): the columns it gives to `linearTriangulateFromNViews`;
`garbage` is the contents of the memory of the two matrices after `resize`. -/
def fastArguments (garbage : List V × List V) (obs : List Observation) (T_W_B : List Pose) : Option (List V × List V) :=
  if 1 < obs.length ∧ obs.length = T_W_B.length then some (fastLoop T_W_B 0 obs garbage) else none

end Verif.Triangulation
