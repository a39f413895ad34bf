import Verif.Base.Outcome
import Verif.Base.Decimal
import Verif.Base.Double

/-!
# Time conversions

Model of `aslam_cv_common/include/aslam/common/time.h`.  `int64_t` values are integers with explicit range
checks, `double` values are rationals and every operation on them is followed by `rnd`, the rounding mode of
the machine.  `nanoSecondsSinceEpoch` (the clock) is not modelled.
-/

namespace Verif.Time

open Verif (Outcome)

/-- `time_traits<TimeUnit>` (time.h:12-15). -/
inductive TimeUnit where
  | sec | milli | micro | nano
  deriving DecidableEq, Repr

/-- `time_traits<TimeUnit>::nanoseconds` (time.h:12-15). -/
def TimeUnit.nanoseconds : TimeUnit → ℤ
  | .sec => 10 ^ 9
  | .milli => 10 ^ 6
  | .micro => 10 ^ 3
  | .nano => 1

/-- An `int64_t` result; overflow and casts out of range are undefined. -/
def int64 (z : ℤ) : Outcome ℤ := if -2 ^ 63 ≤ z ∧ z < 2 ^ 63 then .ok z else .ub

/-- `convertToNanosecondsCompileTime` (time.h:16-19): `seconds(k)`, `milliseconds(k)`, … -/
def ofUnits (u : TimeUnit) (k : ℤ) : Outcome ℤ := int64 (k * u.nanoseconds)

/-- Truncation towards zero, the conversion from `double` to an integer (time.h:20-22). -/
def trunc (q : ℚ) : ℤ := if 0 ≤ q then ⌊q⌋ else ⌈q⌉

/-- `convertToNanoseconds` (time.h:20-22): `from_seconds(value)`, …; the constant is exactly representable. -/
def fromUnits (rnd : ℚ → ℚ) (u : TimeUnit) (value : ℚ) : Outcome ℤ :=
  int64 (trunc (rnd (value * u.nanoseconds)))

/-- `convertFromNanoseconds` (time.h:23-25): `to_seconds(t)`, … -/
def toUnits (rnd : ℚ → ℚ) (u : TimeUnit) (t : ℤ) : ℚ := rnd (rnd t / u.nanoseconds)

/-- `getInvalidTime` (time.h:66-68). -/
def invalidTime : ℤ := -2 ^ 63

/-- `isValidTime` (time.h:71-73). -/
def isValidTime (t : ℤ) : Bool := decide (t ≠ invalidTime)

/-- `timeNanosecondsToString` (time.h:75-86). -/
def timeString (t : ℤ) : List Char :=
  let s := Decimal.intString t
  if s.length < 10 then s ++ ['n', 's']
  else s.take (s.length - 9) ++ ['s', ' '] ++ s.drop (s.length - 9) ++ ['n', 's']

end Verif.Time
