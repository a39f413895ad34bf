import Mathlib.Analysis.SpecialFunctions.Trigonometric.Basic
import Mathlib.Analysis.SpecialFunctions.Pow.Real
import Verif.Base.Outcome

/-!
# Time steps of the fast explicit diffusion

Model of `aslam_cv_detector/src/kaze/fed.cpp`. Numbers of type `float` are real numbers here: rounding is not modelled,
neither is the overflow of `int` (numbers of steps above 2^15).
-/

namespace Verif.Kaze.Fed

open Verif (Outcome)

/-- The loop over the odd divisors, fed.cpp:128-141. `fuel` bounds the number of rounds. -/
def trial (number upper : Nat) : Nat → Nat → Bool
  | 0, _ => true
  | fuel + 1, divisor =>
    if divisor ≤ upper then
      if number % divisor = 0 then false else trial number upper fuel (divisor + 2)
    else true

/-- `fed_is_prime_internal`, fed.cpp:115-145. The limit `int upperLimit = sqrt(number+1.0)` is the integer square root of
`number + 1`. -/
def isPrime (number : Nat) : Bool :=
  if number ≤ 1 then false
  else if number = 2 ∨ number = 3 ∨ number = 5 ∨ number = 7 then true
  else if number % 2 = 0 ∨ number % 3 = 0 ∨ number % 5 = 0 ∨ number % 7 = 0 then false
  else trial number (Nat.sqrt (number + 1)) number 11

/-- The search for the modulus, fed.cpp:93-97. `none` means that the number of rounds in the first argument was not
enough. -/
def nextPrime : Nat → Nat → Option Nat
  | 0, _ => none
  | fuel + 1, prime => if isPrime prime then some prime else nextPrime fuel (prime + 1)

/-- The index of the step that is taken in round `k`, fed.cpp:102. -/
def index (kappa prime k : Nat) : Int := (((k + 1) * kappa % prime : Nat) : Int) - 1

/-- The inner loop of the permutation, fed.cpp:101-104: the first round from `k` on with an index below `n`. -/
def seek (kappa prime n : Nat) : Nat → Nat → Option Nat
  | 0, _ => none
  | fuel + 1, k => if (n : Int) ≤ index kappa prime k then seek kappa prime n fuel (k + 1) else some k

/-- The loop of the permutation, fed.cpp:100-107, with the number of elements left and `k`. A negative index reads before
the first element of the vector. A search without end (which has no effects) is undefined as well. -/
def permute {α : Type} (kappa prime : Nat) (tauh : List α) : Nat → Nat → Outcome (List α)
  | 0, _ => .ok []
  | left + 1, k =>
    match seek kappa prime tauh.length (prime + 1) k with
    | none => .ub
    | some k' =>
      match index kappa prime k' with
      | .negSucc _ => .ub
      | .ofNat i =>
        match tauh[i]? with
        | none => .ub
        | some v => (permute kappa prime tauh left (k' + 1)).bind fun r => .ok (v :: r)

/-- The reordering of the steps, fed.cpp:86-108. -/
def reorder {α : Type} (tauh : List α) : Outcome (List α) :=
  match nextPrime (tauh.length + 1) (tauh.length + 1) with
  | none => .ub
  | some prime => permute (tauh.length / 2) prime tauh tauh.length 0

/-- Step `k` in the original order, fed.cpp:74-84. -/
noncomputable def tauAt (n : Nat) (scale tauMax : ℝ) (k : Nat) : ℝ :=
  let c := 1 / (4 * (n : ℝ) + 2)
  let d := scale * tauMax / 2
  let h := Real.cos (Real.pi * (2 * (k : ℝ) + 1) * c)
  d / (h * h)

/-- `fed_tau_internal`, fed.cpp:61-112: the number of steps and the vector `tau`, which was `old` before. -/
noncomputable def internal (n : Nat) (scale tauMax : ℝ) (reordering : Bool) (old : List ℝ) : Outcome (Nat × List ℝ) :=
  if n = 0 then .ok (0, old)
  else
    let steps := (List.range n).map (tauAt n scale tauMax)
    if reordering then (reorder steps).bind fun r => .ok (n, r) else .ok (n, steps)

/-- The number of steps, fed.cpp:53. For `0 ≤ t` the value that is rounded up is above `-1`, so adding one half and cutting
off gives the integer. -/
noncomputable def steps (t tauMax : ℝ) : Nat := ⌈√(3 * t / tauMax + 1 / 4) - 1 / 2 - 1 / 100000000⌉₊

/-- `fed_tau_by_cycle_time`, fed.cpp:45-58, for a time that is not negative. -/
noncomputable def byCycleTime (t tauMax : ℝ) (reordering : Bool) (old : List ℝ) : Outcome (Nat × List ℝ) :=
  let n := steps t tauMax
  let scale := 3 * t / (tauMax * ((n * (n + 1) : Nat) : ℝ))
  internal n scale tauMax reordering old

/-- `fed_tau_by_process_time`, fed.cpp:38-42. -/
noncomputable def byProcessTime (T : ℝ) (M : Nat) (tauMax : ℝ) (reordering : Bool) (old : List ℝ) :
    Outcome (Nat × List ℝ) :=
  byCycleTime (T / (M : ℝ)) tauMax reordering old

end Verif.Kaze.Fed
