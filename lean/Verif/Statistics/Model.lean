import Verif.Accumulator.Model

/-!
# Statistics collectors

Model of `aslam_cv_common/src/statistics.cc`, `include/aslam/common/statistics/statistics.h` and of the same functions
of `Timing` in `aslam_cv_common/src/timer.cc`.

Every function holds the mutex of the singleton for its whole body (the queries by tag are two such sections), so
concurrent calls are sequences of these steps.  `tag_map_` is a list of pairs without the order of `std::map`, which
only matters for printing: `GetTag` searches for a handle, and handles are distinct.  Printing, the YAML output and
`max_tag_length_` are not modelled.  `rnd` is the rounding of floating point operations and `sec` the conversion of a
number of nanoseconds to seconds.
-/

namespace Verif.Statistics

open Verif (Outcome)
open Verif.Accumulator (Acc)

/-- `StatisticsMapValue` (statistics.h:29-119); times in nanoseconds, `from_time_t(0)` is 0. -/
structure Collector where
  values : Acc
  deltas : Acc
  last : Int
  deriving DecidableEq, Repr

/-- Its constructor (statistics.h:32-34). -/
def Collector.new : Collector := ⟨Acc.new, Acc.new, 0⟩

/-- `kWindowSize` (statistics.h:30). -/
def window : Nat := 100

/-- The delta time part of `AddValue` (statistics.h:40-48). -/
def addDelta (rnd : Rat → Rat) (sec : Int → Rat) (now : Int) (c : Collector) : Outcome Acc :=
  if c.last ≠ 0 then Accumulator.add rnd window (sec (now - c.last)) c.deltas else .ok c.deltas

/-- `AddValue` (statistics.h:36-52). -/
def addValue (rnd : Rat → Rat) (sec : Int → Rat) (x : Rat) (now : Int) (c : Collector) : Outcome Collector :=
  addDelta rnd sec now c >>= fun d => Accumulator.add rnd window x c.values >>= fun v => .ok ⟨v, d, now⟩

/-- `GetLastValue` (statistics.h:60-66). -/
def lastValue (c : Collector) : Rat := if c.values.total ≠ 0 then c.values.recent else 0

/-- `MeanCallsPerSec` (statistics.h:88-95). -/
def callsPerSec (rnd : Rat → Rat) (c : Collector) : Rat :=
  if Accumulator.mean rnd c.deltas ≠ 0 then rnd (1 / Accumulator.mean rnd c.deltas) else -1

/-- `stats_collectors_` and `tag_map_` (statistics.h:204-207). -/
structure Stats where
  collectors : List Collector
  tags : List (String × Nat)
  deriving DecidableEq, Repr

/-- The singleton at the start of the program (statistics.cc:15). -/
def Stats.new : Stats := ⟨[], []⟩

/-- `GetHandle` (statistics.cc:20-36, timer.cc:25-42). -/
def getHandle (tag : String) (s : Stats) : Nat × Stats :=
  match s.tags.lookup tag with
  | some h => (h, s)
  | none => (s.collectors.length, ⟨s.collectors ++ [Collector.new], (tag, s.collectors.length) :: s.tags⟩)

/-- `HasHandle` (statistics.cc:41-45). -/
def hasHandle (tag : String) (s : Stats) : Bool := (s.tags.lookup tag).isSome

/-- `GetTag` (statistics.cc:47-57, timer.cc:44-55). -/
def getTag (h : Nat) (s : Stats) : String :=
  match s.tags.find? (fun p => p.2 == h) with
  | some p => p.1
  | none => ""

/-- `AddSample` / `AddTime` (statistics.cc:73-76, timer.cc:104-107). -/
def addSample (rnd : Rat → Rat) (sec : Int → Rat) (h : Nat) (x : Rat) (now : Int) (s : Stats) : Outcome Stats :=
  match s.collectors[h]? with
  | some c => addValue rnd sec x now c >>= fun c' => .ok { s with collectors := s.collectors.set h c' }
  | none => .ub

/-- A query of a handle, e.g. `GetMean(size_t)` (statistics.cc:77-160, timer.cc:109-170); `f` selects the figure. -/
def query {α : Type} (f : Collector → α) (h : Nat) (s : Stats) : Outcome α :=
  match s.collectors[h]? with
  | some c => .ok (f c)
  | none => .ub

/-- A query of a tag, e.g. `GetMean(const std::string&)`: it creates the tag if there is none
(statistics.cc:77-160, timer.cc:109-170). -/
def queryTag {α : Type} (f : Collector → α) (tag : String) (s : Stats) : Outcome (α × Stats) :=
  query f (getHandle tag s).1 (getHandle tag s).2 >>= fun a => .ok (a, (getHandle tag s).2)

/-- `Reset` (statistics.cc:284-287, timer.cc:272-275). -/
def reset (s : Stats) : Stats := { s with tags := [] }

/-- Operations that change the state: looking up a tag (also done by collectors, timers and queries by tag), adding a
sample through a handle, resetting (statistics.cc:20-76, 284-287). -/
inductive Op where
  | lookup (tag : String)
  | add (h : Nat) (x : Rat) (now : Int)
  | reset

/-- One operation (statistics.cc:20-76, 284-287). -/
def step (rnd : Rat → Rat) (sec : Int → Rat) (s : Stats) : Op → Outcome Stats
  | .lookup tag => .ok (getHandle tag s).2
  | .add h x now => addSample rnd sec h x now s
  | .reset => .ok (reset s)

/-- A sequence of operations (statistics.cc:20-76, 284-287). -/
def run (rnd : Rat → Rat) (sec : Int → Rat) : List Op → Stats → Outcome Stats
  | [], s => .ok s
  | o :: os, s => step rnd sec s o >>= run rnd sec os

end Verif.Statistics
