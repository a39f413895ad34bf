import Verif.Statistics.Model

/-!
# The figures that can be asked for

Model of the queries of `Statistics` and `Timing` (`aslam_cv_common/src/statistics.cc`, `aslam_cv_common/src/timer.cc`).
`none` is a result that is not a finite number.
-/

namespace Verif.Statistics

open Verif (Outcome)

/-- The queries of a handle (statistics.h:158-187). -/
inductive Figure where
  | last | total | mean | num | variance | min | max | hz
  | meanDelta | maxDelta | minDelta | lastDelta | varianceDelta
  deriving DecidableEq, Repr

/-- `GetLastDeltaTime` (statistics.h:53-59). -/
def lastDelta (c : Collector) : Rat := if c.deltas.total ≠ 0 then c.deltas.recent else 0

/-- The function of the collector that a query calls (statistics.h:53-111, statistics.cc:77-167). -/
def figure (rnd : Rat → Rat) (c : Collector) : Figure → Option Rat
  | .last => some (lastValue c)
  | .total => some c.values.sum
  | .mean => some (Accumulator.mean rnd c.values)
  | .num => some c.values.total
  | .variance => Accumulator.variance rnd window c.values
  | .min => some c.values.min
  | .max => some c.values.max
  | .hz => some (callsPerSec rnd c)
  | .meanDelta => some (Accumulator.mean rnd c.deltas)
  | .maxDelta => some c.deltas.max
  | .minDelta => some c.deltas.min
  | .lastDelta => some (lastDelta c)
  | .varianceDelta => Accumulator.variance rnd window c.deltas

/-- `Timing::GetHz` (timer.cc:163-170); the other queries of `Timing` are those of `Statistics` (timer.cc:109-161). -/
def timingHz (rnd : Rat → Rat) (c : Collector) : Option Rat :=
  match Accumulator.rollingMean rnd window c.values with
  | none => none
  | some m => if m = 0 then none else some (rnd (1 / m))

end Verif.Statistics
