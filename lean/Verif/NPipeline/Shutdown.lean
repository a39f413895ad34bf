/-!
# Blocking calls and shutdown of the n-camera pipeline

Model of the waiting in `aslam_cv_pipeline/src/visual-npipeline.cc`: `shutdown` (55-60),
`processImageBlockingIfFull` (62-77), `getNextBlocking` (95-112), `getLatestAndClearBlocking` (170-200),
`work` as far as it wakes callers (317-330).

Threads interleave arbitrarily.  `mutex_` has at most one holder.  Every access to `shutdown_`
(`std::atomic<bool>`) is a step of its own, because `shutdown` changes it without the mutex.  The queue is
represented by the number of completed n-frames.
-/

namespace Verif.NPipeline.Shutdown

/-- The blocking calls (visual-npipeline.cc:62-77, 95-112, 170-200). -/
inductive Call where
  | next
  | latest
  | put (maxQueue : Nat)
  deriving DecidableEq, Repr

/-- The condition under which the call waits (visual-npipeline.cc:66, 100, 177). -/
def Call.blocked : Call → Nat → Bool
  | .next, completed => completed == 0
  | .latest, completed => completed == 0
  | .put m, completed => decide (completed ≥ m)

/-- The call waits on `condition_not_empty_` (the others on `condition_not_full_`) (visual-npipeline.cc:66, 100, 177).
-/
def Call.waitsNotEmpty : Call → Bool
  | .next => true
  | .latest => true
  | .put _ => false

/-- Where a thread is in a blocking call (visual-npipeline.cc:62-77, 95-112, 170-200). -/
inductive Pc where
  /-- not in a blocking call -/
  | idle
  /-- about to take the mutex -/
  | lock (c : Call)
  /-- `while (!shutdown_)`, mutex held -/
  | testFlag (c : Call)
  /-- first test of the queue, mutex held -/
  | testQueue (c : Call)
  /-- about to call `wait(lock)`, mutex held -/
  | wait (c : Call)
  /-- blocked in `wait` -/
  | asleep (c : Call)
  /-- woken, about to take the mutex again -/
  | wake (c : Call)
  /-- second test of the queue, mutex held -/
  | recheck (c : Call)
  deriving DecidableEq, Repr

/-- Progress of `shutdown` (visual-npipeline.cc:55-60). -/
inductive Stage where
  | notCalled
  | flagSet
  | emptyNotified
  | returned
  deriving DecidableEq, Repr

/-- The pipeline as seen by blocking calls.  `results` and `atFlag` are only observations: the values
returned to each thread, and where each thread was when `shutdown_` was set (visual-npipeline.h:180-206). -/
structure State where
  flag : Bool
  holder : Option Nat
  completed : Nat
  stage : Stage
  pc : Nat → Pc
  results : Nat → List Bool
  atFlag : Nat → Pc

/-- After construction (visual-npipeline.cc:17-48). -/
def State.init : State := ⟨false, none, 0, .notCalled, fun _ => .idle, fun _ => [], fun _ => .idle⟩

/-- What happens (visual-npipeline.cc:55-200). -/
inductive Label where
  /-- thread `t` enters a blocking call -/
  | call (t : Nat) (c : Call)
  /-- thread `t` does its next action in its call -/
  | act (t : Nat)
  /-- a spurious wake-up of thread `t` -/
  | spurious (t : Nat)
  /-- `shutdown_ = true` (visual-npipeline.cc:56) -/
  | setFlag
  /-- `condition_not_empty_.notify_all()` in `shutdown` (visual-npipeline.cc:57) -/
  | notifyEmpty
  /-- `condition_not_full_.notify_all()` in `shutdown` (visual-npipeline.cc:58), after which it returns -/
  | notifyFull
  /-- a worker completes an n-frame and notifies (visual-npipeline.cc:317-330) -/
  | complete
  /-- a non-blocking `getNext`, `getLatestAndClear` or dropping call takes `n` n-frames (visual-npipeline.cc:82-88,
  125-168) -/
  | consume (n : Nat)
  deriving DecidableEq, Repr

/-- Change one entry of a function (visual-npipeline.cc:55-200). -/
def put {α : Type} (f : Nat → α) (t : Nat) (x : α) : Nat → α := fun u => if u = t then x else f u

/-- A thread woken by `notify_all` on `condition_not_empty_` (visual-npipeline.cc:57). -/
def wakeEmpty : Pc → Pc
  | .asleep c => if c.waitsNotEmpty then .wake c else .asleep c
  | p => p

/-- A thread woken by `notify_all` on `condition_not_full_` (visual-npipeline.cc:58). -/
def wakeFull : Pc → Pc
  | .asleep c => if c.waitsNotEmpty then .asleep c else .wake c
  | p => p

/-- Successful end of a call: `getNextImpl` takes one n-frame and notifies (visual-npipeline.cc:106-108, 136-141), the
latest variant takes all and notifies (visual-npipeline.cc:183-190), and `processImageBlockingIfFull` enqueues the
image (visual-npipeline.cc:72). -/
def finish (s : State) (t : Nat) : Call → State
  | .next => { s with
      holder := none
      completed := s.completed - 1
      pc := put (fun u => wakeFull (s.pc u)) t .idle
      results := put s.results t (s.results t ++ [true]) }
  | .latest => { s with
      holder := none
      completed := 0
      pc := put (fun u => wakeFull (s.pc u)) t .idle
      results := put s.results t (s.results t ++ [true]) }
  | .put _ => { s with
      holder := none
      pc := put s.pc t .idle
      results := put s.results t (s.results t ++ [true]) }

/-- The next action of a thread in a blocking call (visual-npipeline.cc:65-76, 98-111, 174-199); `none` if it cannot
act. -/
def act (s : State) (t : Nat) : Option State :=
  match s.pc t with
  | .idle => none
  | .lock c => if s.holder = none then some { s with holder := some t, pc := put s.pc t (.testFlag c) } else none
  | .testFlag c =>
    if s.flag then some { s with
      holder := none
      pc := put s.pc t .idle
      results := put s.results t (s.results t ++ [false]) }
    else some { s with pc := put s.pc t (.testQueue c) }
  | .testQueue c =>
    if c.blocked s.completed then some { s with pc := put s.pc t (.wait c) } else some (finish s t c)
  | .wait c => some { s with holder := none, pc := put s.pc t (.asleep c) }
  | .asleep _ => none
  | .wake c => if s.holder = none then some { s with holder := some t, pc := put s.pc t (.recheck c) } else none
  | .recheck c =>
    if c.blocked s.completed then some { s with pc := put s.pc t (.testFlag c) } else some (finish s t c)

/-- One step (visual-npipeline.cc:55-200). -/
def step (s : State) : Label → Option State
  | .call t c => if s.pc t = .idle then some { s with pc := put s.pc t (.lock c) } else none
  | .act t => act s t
  | .spurious t =>
    match s.pc t with
    | .asleep c => some { s with pc := put s.pc t (.wake c) }
    | _ => none
  | .setFlag =>
    if s.stage = .notCalled then some { s with flag := true, stage := .flagSet, atFlag := s.pc } else none
  | .notifyEmpty =>
    if s.stage = .flagSet then some { s with stage := .emptyNotified, pc := fun u => wakeEmpty (s.pc u) }
    else none
  | .notifyFull =>
    if s.stage = .emptyNotified then some { s with stage := .returned, pc := fun u => wakeFull (s.pc u) }
    else none
  | .complete =>
    if s.holder = none then some { s with completed := s.completed + 1, pc := fun u => wakeEmpty (s.pc u) }
    else none
  | .consume n =>
    if s.holder = none ∧ 1 ≤ n ∧ n ≤ s.completed then
      some { s with completed := s.completed - n, pc := fun u => wakeFull (s.pc u) }
    else none

/-- A sequence of steps (visual-npipeline.cc:55-200). -/
def run (s : State) : List Label → Option State
  | [] => some s
  | l :: ls =>
    match step s l with
    | some s' => run s' ls
    | none => none

/-- States after any sequence of steps (visual-npipeline.cc:55-200). -/
inductive Reachable : State → Prop
  | init : Reachable State.init
  | step {s s' : State} {l : Label} : Reachable s → step s l = some s' → Reachable s'

end Verif.NPipeline.Shutdown
