import Verif.Statistics.Model

/-!
# Timers

Model of `TimerImpl` (`aslam_cv_common/include/aslam/common/timer.h`, `src/timer.cc`) on top of `Timing`, whose functions
are those of `Verif.Statistics`.

The clock readings are inputs, one per operation: the reading that `AddValue` takes right after the one of `Stop` is
taken to be the same.  `sec` converts a number of nanoseconds to seconds (timer.cc:13, 81-84), `rnd` rounds.  The class
declares a destructor and no copy operations, so that it is implicitly copyable: `copy` is the implicit copy
constructor.
-/

namespace Verif.Timer

open Verif (Outcome)
open Verif.Statistics (Stats getHandle addSample)

/-- `TimerImpl` (timer.h:72-91); `alive` is false once it has been destroyed. -/
structure Timer where
  alive : Bool
  isTiming : Bool
  handle : Nat
  time : Int
  deriving DecidableEq, Repr

/-- The singleton and all timers ever created, in order of creation (timer.h:72-91). -/
structure World where
  stats : Stats
  timers : List Timer
  deriving DecidableEq, Repr

/-- The start of the program (timer.cc:15-20). -/
def World.new : World := ⟨Stats.new, []⟩

/-- `Start` (timer.cc:71-74). -/
def start (now : Int) (t : Timer) : Timer := { t with isTiming := true, time := now }

/-- The constructor (timer.cc:58-63). -/
def create (handle : Nat) (stopped : Bool) (now : Int) : Timer :=
  if !stopped then start now ⟨true, false, handle, 0⟩ else ⟨true, false, handle, 0⟩

/-- `Stop` (timer.cc:76-90): the returned value, the timer and the statistics. -/
def stop (rnd : Rat → Rat) (sec : Int → Rat) (now : Int) (t : Timer) (s : Stats) : Outcome (Rat × Timer × Stats) :=
  if t.isTiming then
    addSample rnd sec t.handle (sec (now - t.time)) now s >>= fun s' =>
      .ok (sec (now - t.time), { t with isTiming := false }, s')
  else .ok (0, t, s)

/-- `Discard` (timer.cc:92-94). -/
def discard (t : Timer) : Timer := { t with isTiming := false }

/-- The destructor (timer.cc:65-69). -/
def destroy (rnd : Rat → Rat) (sec : Int → Rat) (now : Int) (t : Timer) (s : Stats) : Outcome (Timer × Stats) :=
  if t.isTiming then stop rnd sec now t s >>= fun r => .ok ({ r.2.1 with alive := false }, r.2.2)
  else .ok ({ t with alive := false }, s)

/-- Operations on timers (by number in order of creation) and `Timing::Reset` (timer.cc:58-94, 272-275). -/
inductive Op where
  | create (tag : String) (stopped : Bool) (now : Int)
  | start (i : Nat) (now : Int)
  | stop (i : Nat) (now : Int)
  | discard (i : Nat)
  | destroy (i : Nat) (now : Int)
  | copy (i : Nat)
  | reset
  deriving DecidableEq, Repr

/-- A timer that exists; using another is undefined (the object of a call, timer.cc:65-94). -/
def get (i : Nat) (w : World) : Outcome Timer :=
  match w.timers[i]? with
  | some t => if t.alive then .ok t else .ub
  | none => .ub

/-- One operation (timer.cc:58-94, 272-275). -/
def step (rnd : Rat → Rat) (sec : Int → Rat) (w : World) : Op → Outcome World
  | .create tag stopped now =>
    .ok ⟨(getHandle tag w.stats).2, w.timers ++ [create (getHandle tag w.stats).1 stopped now]⟩
  | .start i now => get i w >>= fun t => .ok { w with timers := w.timers.set i (start now t) }
  | .stop i now => get i w >>= fun t => stop rnd sec now t w.stats >>= fun r => .ok ⟨r.2.2, w.timers.set i r.2.1⟩
  | .discard i => get i w >>= fun t => .ok { w with timers := w.timers.set i (discard t) }
  | .destroy i now => get i w >>= fun t => destroy rnd sec now t w.stats >>= fun r => .ok ⟨r.2, w.timers.set i r.1⟩
  | .copy i => get i w >>= fun t => .ok { w with timers := w.timers ++ [t] }
  | .reset => .ok { w with stats := Statistics.reset w.stats }

/-- A sequence of operations (timer.cc:58-94, 272-275). -/
def run (rnd : Rat → Rat) (sec : Int → Rat) : List Op → World → Outcome World
  | [], w => .ok w
  | o :: os, w => step rnd sec w o >>= run rnd sec os

end Verif.Timer
