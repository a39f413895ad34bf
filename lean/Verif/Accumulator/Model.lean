import Verif.Base.Outcome
import Mathlib.Data.Rat.Defs

/-!
# Accumulator

Model of `aslam_cv_common/include/aslam/common/statistics/accumulator.h`, for `double` samples and sums.  Numbers are
rationals; `rnd` is the rounding of each floating point operation (the identity for exact arithmetic).  Infinities and
NaN are not modelled as samples; a quotient 0/0 is `none`.
-/

namespace Verif.Accumulator

open Verif (Outcome)

/-- `kInfiniteWindowSize` (accumulator.h:12). -/
def infinite : Nat := 2 ^ 31 - 1

/-- The largest `double` (accumulator.h:25-28). -/
def maxDouble : Rat := (2 ^ 53 - 1) * 2 ^ 971

/-- The members (accumulator.h:111-119). -/
structure Acc where
  samples : List Rat
  index : Nat
  total : Nat
  sum : Rat
  windowSum : Rat
  min : Rat
  max : Rat
  recent : Rat
  deriving DecidableEq, Repr

/-- The constructor (accumulator.h:18-30). -/
def Acc.new : Acc := ⟨[], 0, 0, 0, 0, maxDouble, -maxDouble, 0⟩

/-- The ring buffer part of `Add` (accumulator.h:33-42). -/
def store (rnd : Rat → Rat) (W : Nat) (x : Rat) (a : Acc) : Outcome Acc :=
  if a.index < W then
    .ok { a with samples := a.samples ++ [x], windowSum := rnd (a.windowSum + x), index := a.index + 1, recent := x }
  else
    match a.samples[a.index % W]? with
    | some o => .ok { a with samples := a.samples.set (a.index % W) x,
                             windowSum := rnd (a.windowSum + rnd (x - o)), index := a.index + 1, recent := x }
    | none => .exc

/-- The rest of `Add` (accumulator.h:43-50). -/
def tally (rnd : Rat → Rat) (x : Rat) (a : Acc) : Acc :=
  { a with sum := rnd (a.sum + x), total := a.total + 1,
           max := if a.max < x then x else a.max, min := if x < a.min then x else a.min }

/-- `Add` (accumulator.h:32-51).  The counters are `int`: incrementing the largest one is undefined. -/
def add (rnd : Rat → Rat) (W : Nat) (x : Rat) (a : Acc) : Outcome Acc :=
  if a.index < 2 ^ 31 - 1 ∧ a.total < 2 ^ 31 - 1 then store rnd W x a >>= fun b => .ok (tally rnd x b) else .ub

/-- A sequence of `Add` (accumulator.h:32-51). -/
def addAll (rnd : Rat → Rat) (W : Nat) : List Rat → Acc → Outcome Acc
  | [], a => .ok a
  | x :: xs, a => add rnd W x a >>= addAll rnd W xs

/-- `Mean` (accumulator.h:61-63). -/
def mean (rnd : Rat → Rat) (a : Acc) : Rat := if a.total < 1 then 0 else rnd (a.sum / a.total)

/-- `RollingMean` (accumulator.h:67-73); `none` is NaN. -/
def rollingMean (rnd : Rat → Rat) (W : Nat) (a : Acc) : Option Rat :=
  if W < infinite then
    if Nat.min a.index W = 0 then none else some (rnd (a.windowSum / (Nat.min a.index W : Nat)))
  else some (mean rnd a)

/-- The loop of `LazyVariance` (accumulator.h:95-97). -/
def varianceLoop (rnd : Rat → Rat) (m : Rat) : List Rat → Rat → Rat
  | [], v => v
  | x :: xs, v => varianceLoop rnd m xs (rnd (v + rnd (rnd (x - m) * rnd (x - m))))

/-- `LazyVariance` (accumulator.h:87-101). -/
def variance (rnd : Rat → Rat) (W : Nat) (a : Acc) : Option Rat :=
  if a.samples.length < 2 then some 0
  else (rollingMean rnd W a).map fun m => rnd (varianceLoop rnd m a.samples 0 / ((a.samples.length - 1 : Nat) : Rat))

end Verif.Accumulator
