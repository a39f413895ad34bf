import Verif.Base.Outcome

/-!
# Model of `aslam::ThreadPool`

Sources: `aslam_cv_common/src/thread-pool.cc`, `aslam_cv_common/include/aslam/common/thread-pool.h`.

A transition system. One step is one critical section of `tasks_mutex_`, or one access made outside
of it (the unlocked read of `stop_` in `enqueueOrdered`, the write of `stop_` in `stop()`,
`notify_one`/`notify_all` issued after unlocking). All interleavings of these steps are possible.

Simplifications: a task body is opaque and terminates (its end is the step `finish`); counters do not
overflow upwards (fewer than 2^32 workers, 2^64 queued tasks); a `std::function` in the queue is never
empty (the code only stores lambdas); `volatile bool stop_` is treated as sequentially consistent.
-/

namespace Verif.ThreadPool

/-- `kGroupdIdNonExclusiveTask` = `numeric_limits<size_t>::max()` (thread-pool.h:81-82). -/
def nonExclusive : Nat := 2 ^ 64 - 1

/-- An element of `groupid_tasks_` (thread-pool.h:98). The `std::function` is represented by a
unique id: the `id`-th call of enqueue/enqueueOrdered. -/
structure Task where
  group : Nat
  id : Nat
  deriving DecidableEq, Repr

/-- `GuardMap` (thread-pool.h:101). -/
abbrev Guards := List (Nat × Bool)

/-- Where a worker thread is in `ThreadPool::run` (thread-pool.cc:27-122). -/
inductive WorkerPc where
  /-- not asleep, does not hold the mutex, about to (re)acquire it and scan (line 29, or woken in 85) -/
  | ready
  /-- blocked in `tasks_queue_change_.wait(lock)` (line 85) -/
  | asleep
  /-- executing `task()` with the mutex released (line 104) -/
  | running (t : Task)
  /-- returned from `run` (line 82) -/
  | exited
  deriving DecidableEq, Repr

/-- Progress of the destructor (thread-pool.cc:16-25). -/
inductive DtorPc where
  | notCalled
  /-- `stop_ = true` done (19), `notify_all` (21) not yet -/
  | stopSet
  /-- `notify_all` done, waiting in the joins (22-24) -/
  | joining
  /-- all joins returned -/
  | joined
  deriving DecidableEq, Repr

/-- The pool, its threads and the calls in progress. The last group of fields is history
(ghost state) and is never read by the code (thread-pool.h:91-117). -/
structure State where
  /-- `groupid_tasks_` -/
  tasks : List Task
  /-- `groupid_exclusivity_guards_` -/
  guards : Guards
  /-- `num_queued_nonexclusive_tasks` -/
  numNonExclusive : Nat
  /-- `active_threads_` -/
  active : Nat
  /-- `stop_` -/
  stop : Bool
  /-- `workers_` -/
  workers : List WorkerPc
  dtor : DtorPc
  /-- enqueue calls that read `stop_ == false` (thread-pool.h:135) and have not yet pushed -/
  checked : List Task
  /-- number of enqueue calls between unlocking (155) and `notify_one` (156) -/
  toNotify : Nat
  /-- `waitForEmptyQueue` callers about to acquire the mutex (thread-pool.cc:130, or woken) -/
  waitersReady : Nat
  /-- `waitForEmptyQueue` callers blocked in `wait` (thread-pool.cc:134) -/
  waitersAsleep : Nat
  /-- next call number -/
  nextId : Nat
  /-- history: tasks in the order they were pushed -/
  pushed : List Task
  /-- history: tasks in the order they were started -/
  started : List Task
  /-- history: tasks in the order they finished -/
  finished : List Task
  deriving DecidableEq, Repr

/-- Constructor (thread-pool.cc:8-13). -/
def init (threads : Nat) : State where
  tasks := []
  guards := []
  numNonExclusive := 0
  active := 0
  stop := false
  workers := List.replicate threads .ready
  dtor := .notCalled
  checked := []
  toNotify := 0
  waitersReady := 0
  waitersAsleep := 0
  nextId := 0
  pushed := []
  started := []
  finished := []

/-- `groupid_exclusivity_guards_[g]`: inserts `false` if the key is missing (thread-pool.cc:56). -/
def indexGuard (gs : Guards) (g : Nat) : Bool × Guards :=
  match gs.lookup g with
  | some b => (b, gs)
  | none => (false, gs ++ [(g, false)])

/-- The loop over the deque (thread-pool.cc:48-73): the first task that is non-exclusive or whose guard
is inactive, the deque without it, and the guard map (operator[] may insert). -/
def scan : List Task → Guards → Option Task × List Task × Guards
  | [], gs => (none, [], gs)
  | t :: ts, gs =>
    let isExclusive := t.group != nonExclusive
    let (guardActive, gs') := if isExclusive then indexGuard gs t.group else (false, gs)
    if !(isExclusive && guardActive) then (some t, ts, gs')
    else
      let (r, rest, gs'') := scan ts gs'
      (r, t :: rest, gs'')

/-- Decrement of an unsigned counter with modulus `m` (thread-pool.cc:65, 116). -/
def decMod (m n : Nat) : Nat := if n = 0 then m - 1 else n - 1

/-- Task selection (thread-pool.cc:36-74). `std::all_of` over an empty map is true. -/
def select (s : State) : Option Task × State :=
  let allGuardsActive := s.guards.all (fun v => v.2)
  if !allGuardsActive || decide (s.numNonExclusive > 0) then
    match scan s.tasks s.guards with
    | (some t, rest, gs) =>
      (some t, { s with
        tasks := rest, guards := gs,
        numNonExclusive :=
          if t.group = nonExclusive then decMod (2 ^ 64) s.numNonExclusive else s.numNonExclusive })
    | (none, _, gs) => (none, { s with guards := gs })
  else (none, s)

/-- Overwrite the value of an existing key (thread-pool.cc:99, 113). -/
def setGuard (gs : Guards) (g : Nat) (b : Bool) : Guards :=
  gs.map fun v => if v.1 = g then (g, b) else v

/-- Lines 94-100: `CHECK(it == end() || !it->second); it->second = true`.
With `it == end()` the CHECK passes and the assignment dereferences `end()`: undefined behaviour. -/
def acquireGuard (gs : Guards) (g : Nat) : Outcome Guards :=
  if g = nonExclusive then .ok gs
  else match gs.lookup g with
    | none => .ub
    | some true => .abort
    | some false => .ok (setGuard gs g true)

/-- Lines 108-114: `CHECK(it != end() && it->second); it->second = false`. -/
def releaseGuard (gs : Guards) (g : Nat) : Outcome Guards :=
  if g = nonExclusive then .ok gs
  else match gs.lookup g with
    | some true => .ok (setGuard gs g false)
    | _ => .abort

/-- A sleeping worker is made ready by a notification (thread-pool.cc:21, 120, thread-pool.h:156). -/
def wake : WorkerPc → WorkerPc
  | .asleep => .ready
  | w => w

/-- `tasks_queue_change_.notify_all()`: every sleeper (workers and `waitForEmptyQueue` callers)
(thread-pool.cc:21, 120). -/
def notifyAll (s : State) : State :=
  { s with
    workers := s.workers.map wake
    waitersReady := s.waitersReady + s.waitersAsleep
    waitersAsleep := 0 }

/-- Who is woken by a `notify_one` (thread-pool.h:156). -/
inductive Target where
  | worker (i : Nat)
  | waiter
  /-- nobody sleeps, the notification has no effect -/
  | nobody
  deriving DecidableEq, Repr

/-- The steps of the system (thread-pool.cc:16-136, thread-pool.h:74, 128-158). -/
inductive Action where
  /-- `enqueue`/`enqueueOrdered` reads `stop_` (thread-pool.h:135-139) -/
  | enqCheck (group : Nat)
  /-- critical section of the i-th pending enqueue call (thread-pool.h:144-155) -/
  | enqPush (i : Nat)
  /-- `tasks_queue_change_.notify_one()` (thread-pool.h:156) -/
  | enqNotify (target : Target)
  /-- worker i: acquire the mutex, select, then start a task / exit / go to sleep (29-103) -/
  | work (i : Nat)
  /-- worker i: task returned; reacquire the mutex and report (105-121) -/
  | finish (i : Nat)
  /-- spurious wake-up of worker i -/
  | spuriousWorker (i : Nat)
  /-- spurious wake-up of a `waitForEmptyQueue` caller -/
  | spuriousWaiter
  /-- `waitForEmptyQueue` is called -/
  | waitCall
  /-- a `waitForEmptyQueue` caller acquires the mutex, evaluates the condition, returns or sleeps -/
  | waitCheck
  /-- `stop()` (thread-pool.h:74) -/
  | stopCall
  /-- destructor: `stop_ = true` (thread-pool.cc:17-20) -/
  | dtorStop
  /-- destructor: `notify_all` (21) -/
  | dtorNotify
  /-- destructor: the joins return (22-24) -/
  | dtorJoin
  deriving DecidableEq, Repr

/-- The body of `run` from acquiring the mutex to the next release (thread-pool.cc:29-103). -/
def workBody (s : State) (i : Nat) : Outcome State :=
  match select s with
  | (some t, s1) =>
    (acquireGuard s1.guards t.group).bind fun gs =>
      .ok { s1 with
        guards := gs
        active := s1.active + 1
        workers := s1.workers.set i (.running t)
        started := s1.started ++ [t] }
  | (none, s1) =>
    if s1.stop && s1.tasks.length == 0 then
      .ok { s1 with workers := s1.workers.set i .exited }
    else
      .ok { s1 with workers := s1.workers.set i .asleep }

/-- After `task()` returned (thread-pool.cc:105-121). -/
def finishBody (s : State) (i : Nat) (t : Task) : Outcome State :=
  (releaseGuard s.guards t.group).bind fun gs =>
    .ok (notifyAll { s with
      guards := gs
      active := decMod (2 ^ 32) s.active
      workers := s.workers.set i .ready
      finished := s.finished ++ [t] })

/-- The critical section of enqueueOrdered (thread-pool.h:144-155). -/
def pushBody (s : State) (i : Nat) (t : Task) : State :=
  { s with
    checked := s.checked.eraseIdx i
    tasks := s.tasks ++ [t]
    numNonExclusive := if t.group = nonExclusive then s.numNonExclusive + 1 else s.numNonExclusive
    guards :=
      if t.group = nonExclusive then s.guards
      else if (s.guards.lookup t.group).isNone then s.guards ++ [(t.group, false)] else s.guards
    toNotify := s.toNotify + 1
    pushed := s.pushed ++ [t] }

/-- One step; `none` if the action is not possible in the state. By the object lifetime rules of C++
no member function may be called, or be in progress, once the destructor has begun
(thread-pool.cc:16-136, thread-pool.h:74, 128-158). -/
def step (s : State) : Action → Option (Outcome State)
  | .enqCheck g =>
    if s.dtor = .notCalled then
      if s.stop then some (.ok { s with nextId := s.nextId + 1 })
      else some (.ok { s with checked := s.checked ++ [⟨g, s.nextId⟩], nextId := s.nextId + 1 })
    else none
  | .enqPush i =>
    match s.checked[i]? with
    | some t => some (.ok (pushBody s i t))
    | none => none
  | .enqNotify target =>
    if s.toNotify = 0 then none
    else match target with
      | .worker i =>
        if s.workers[i]? = some .asleep then
          some (.ok { s with toNotify := s.toNotify - 1, workers := s.workers.set i .ready })
        else none
      | .waiter =>
        if s.waitersAsleep > 0 then
          some (.ok { s with
            toNotify := s.toNotify - 1
            waitersAsleep := s.waitersAsleep - 1
            waitersReady := s.waitersReady + 1 })
        else none
      | .nobody =>
        if s.waitersAsleep = 0 ∧ .asleep ∉ s.workers then
          some (.ok { s with toNotify := s.toNotify - 1 })
        else none
  | .work i => if s.workers[i]? = some .ready then some (workBody s i) else none
  | .finish i =>
    match s.workers[i]? with
    | some (.running t) => some (finishBody s i t)
    | _ => none
  | .spuriousWorker i =>
    if s.workers[i]? = some .asleep then some (.ok { s with workers := s.workers.set i .ready })
    else none
  | .spuriousWaiter =>
    if s.waitersAsleep > 0 then
      some (.ok { s with waitersAsleep := s.waitersAsleep - 1, waitersReady := s.waitersReady + 1 })
    else none
  | .waitCall =>
    if s.dtor = .notCalled then some (.ok { s with waitersReady := s.waitersReady + 1 }) else none
  | .waitCheck =>
    if s.waitersReady = 0 then none
    else if s.active > 0 ∨ s.tasks.length > 0 then
      some (.ok { s with waitersReady := s.waitersReady - 1, waitersAsleep := s.waitersAsleep + 1 })
    else some (.ok { s with waitersReady := s.waitersReady - 1 })
  | .stopCall => if s.dtor = .notCalled then some (.ok { s with stop := true }) else none
  | .dtorStop =>
    if s.dtor = .notCalled ∧ s.checked = [] ∧ s.toNotify = 0 ∧ s.waitersReady = 0 ∧ s.waitersAsleep = 0
    then some (.ok { s with stop := true, dtor := .stopSet }) else none
  | .dtorNotify =>
    if s.dtor = .stopSet then some (.ok { notifyAll s with dtor := .joining }) else none
  | .dtorJoin =>
    if s.dtor = .joining ∧ ∀ w ∈ s.workers, w = .exited then some (.ok { s with dtor := .joined })
    else none

/-- States reachable by steps that satisfy `allow` (used to state which usage a theorem covers)
(thread-pool.cc:8-136). -/
inductive Reachable (allow : State → Action → Prop) (threads : Nat) : State → Prop
  | init : Reachable allow threads (init threads)
  | step {s s' : State} {a : Action} : Reachable allow threads s → allow s a →
      step s a = some (.ok s') → Reachable allow threads s'

/-- No restriction on the usage (every call of thread-pool.h:62-84). -/
def anyUse : State → Action → Prop := fun _ _ => True

end Verif.ThreadPool
