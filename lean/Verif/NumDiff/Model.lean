import Mathlib.Analysis.Real.Sqrt
import Mathlib.Data.List.FinRange

/-!
# Numerical differentiation

Models `aslam_cv_common/include/aslam/common/numdiff-jacobian-tester.h`: the class `NumericalDiff`, the
selection of the class for functions without inputs, and the macro `TEST_JACOBIAN_FINITE_DIFFERENCE`.
Simplification: `double` is an exact real number.
-/

namespace Verif.NumDiff

/-- numdiff-jacobian-tester.h:95-99: `NumericalDiffMode`. -/
inductive Mode where
  | forward
  | central
  | centralSecond
  deriving DecidableEq

/-- numdiff-jacobian-tester.h:79-85: `operator()(x, fvec)` of the functor: whether the function could be
evaluated, and its value. The function is `const`: it depends on its argument only. -/
abbrev Fun (n m : Nat) := (Fin n → ℝ) → Bool × (Fin m → ℝ)

/-- numdiff-jacobian-tester.h:152: `eps`; the epsilon of `double` is 2⁻⁵². -/
noncomputable def eps (epsfcn : ℝ) : ℝ := √(max epsfcn (1 / 2 ^ 52))

/-- numdiff-jacobian-tester.h:160-163: the step `h` for an input of value `v`. -/
noncomputable def step (epsfcn v : ℝ) : ℝ := if eps epsfcn * |v| = 0 then eps epsfcn else eps epsfcn * |v|

/-- The variables of the loop: `x`, `jac` and `success` (numdiff-jacobian-tester.h:144-197). -/
structure St (n m : Nat) where
  x : Fin n → ℝ
  jac : Fin m → Fin n → ℝ
  success : Bool

/-- Assigning a column of the Jacobian (numdiff-jacobian-tester.h:144-197). -/
def setCol {n m : Nat} (J : Fin m → Fin n → ℝ) (j : Fin n) (c : Fin m → ℝ) : Fin m → Fin n → ℝ :=
  fun i k => if k = j then c i else J i k

/-- numdiff-jacobian-tester.h:159-195: one round of the loop. -/
noncomputable def column {n m : Nat} (mode : Mode) (f : Fun n m) (epsfcn : ℝ) (x0 : Fin n → ℝ) (s : St n m) (j : Fin n) :
    St n m :=
  let h := step epsfcn (s.x j)
  let put := fun (x : Fin n → ℝ) (v : ℝ) => Function.update x j v
  match mode with
  | .forward =>
    let r1 := f s.x
    let x := put s.x (s.x j + h)
    let r2 := f x
    { x := put x (x0 j)
      jac := setCol s.jac j fun i => (r2.2 i - r1.2 i) / h
      success := s.success && r1.1 && r2.1 }
  | .central =>
    let x := put s.x (s.x j + h)
    let r2 := f x
    let x := put x (x j - 2 * h)
    let r1 := f x
    { x := put x (x0 j)
      jac := setCol s.jac j fun i => (r2.2 i - r1.2 i) / (2 * h)
      success := s.success && r2.1 && r1.1 }
  | .centralSecond =>
    let x := put s.x (s.x j + 2 * h)
    let r1 := f x
    let x := put x (x j - h)
    let r2 := f x
    let x := put x (x j - 2 * h)
    let r3 := f x
    let x := put x (x j - h)
    let r4 := f x
    { x := put x (x0 j)
      jac := setCol s.jac j fun i => (8 * r2.2 i + r4.2 i - r1.2 i - 8 * r3.2 i) / (h * 12)
      success := s.success && r1.1 && r2.1 && r3.1 && r4.1 }

/-- numdiff-jacobian-tester.h:119-121, 144-197, 203-211: `getJacobianNumerical(x, jac)`; `junk` is what the matrix
holds before. With no inputs the other class is taken, which does nothing and returns true; that is what the loop
gives as well. -/
noncomputable def jacobianNumerical {n m : Nat} (mode : Mode) (f : Fun n m) (epsfcn : ℝ) (x0 : Fin n → ℝ)
    (junk : Fin m → Fin n → ℝ) : Bool × (Fin m → Fin n → ℝ) :=
  let s := (List.finRange n).foldl (column mode f epsfcn x0) ⟨x0, junk, true⟩
  (s.success, s.jac)

/-- numdiff-jacobian-tester.h:47-60: the macro `TEST_JACOBIAN_FINITE_DIFFERENCE`, whether the test passes. The
analytical Jacobian is given with the value returned for it; the matrices are near if all their entries are. -/
def passes {n m : Nat} (f : Fun n m) (x0 : Fin n → ℝ) (stepsize tolerance : ℝ) (symbolic : Bool × (Fin m → Fin n → ℝ))
    (junk : Fin m → Fin n → ℝ) : Prop :=
  let r := jacobianNumerical .centralSecond f stepsize x0 junk
  r.1 = true ∧ symbolic.1 = true ∧ ∀ i j, |r.2 i j - symbolic.2 i j| ≤ tolerance

end Verif.NumDiff
