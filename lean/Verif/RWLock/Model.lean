import Verif.Base.Outcome

/-!
# Model of `ReaderWriterMutex` and `ReaderFirstReaderWriterMutex`

Sources: `aslam_cv_common/src/reader-writer-lock.cc`, `aslam_cv_common/src/reader-first-reader-writer-lock.cc`.

A transition system over any number of threads. One step is one critical section of `mutex_` (from
acquiring it to releasing it or to blocking in a condition variable), or the `notify_all` that
`releaseWriteLock` issues after unlocking.

Simplifications: fewer than 2^32 threads (the unsigned counters do not overflow upwards; wrap-around
below zero *is* modelled). Each thread runs one lock call at a time and releases only what it holds.
-/

namespace Verif.RWLock

/-- Which of the two classes is used (the derived class overrides the two acquire functions only)
(reader-writer-lock.h:11, reader-first-reader-writer-lock.cc:10-33). -/
inductive Variant where
  /-- `ReaderWriterMutex` -/
  | base
  /-- `ReaderFirstReaderWriterMutex` -/
  | readerFirst
  deriving DecidableEq, Repr

/-- Where a thread is. `…Asleep` = blocked on a condition variable; `…Woken` = notified, has to reacquire the mutex
and re-evaluate its loop condition (reader-writer-lock.cc:15-75, reader-first-reader-writer-lock.cc:10-33). -/
inductive Pc where
  /-- not inside a lock call and holding nothing -/
  | idle
  /-- in `acquireReadLock`, blocked on `cv_writer_finished_` (reader-writer-lock.cc:19,
  reader-first-reader-writer-lock.cc:13) -/
  | rdAsleep
  | rdWoken
  /-- holds the read lock -/
  | reading
  /-- in `acquireWriteLock`, blocked on `cv_readers_` (reader-writer-lock.cc:37,
  reader-first-reader-writer-lock.cc:22) -/
  | wr1Asleep
  | wr1Woken
  /-- in `acquireWriteLock`, blocked on `cv_writer_finished_` (reader-writer-lock.cc:40,
  reader-first-reader-writer-lock.cc:28) -/
  | wr2Asleep
  | wr2Woken
  /-- holds the write lock -/
  | writing
  /-- in `releaseWriteLock` between unlocking (reader-writer-lock.cc:50) and `notify_all` (reader-writer-lock.cc:51) -/
  | relNotify
  /-- in `upgradeToWriteLock`, blocked on `cv_readers_` (reader-writer-lock.cc:66); still counted as reader -/
  | upAsleep
  | upWoken
  deriving DecidableEq, Repr

/-- The members of the mutex (reader-writer-lock.h) and the threads using it (lines 33-40). -/
structure State where
  /-- `pending_readers_` -/
  pendingReaders : Nat
  /-- `num_readers_` -/
  numReaders : Nat
  /-- `num_pending_writers_` -/
  numPendingWriters : Nat
  /-- `current_writer_` -/
  currentWriter : Bool
  /-- `pending_upgrade_` -/
  pendingUpgrade : Bool
  threads : List Pc
  deriving DecidableEq, Repr

/-- Constructor (reader-writer-lock.cc:6-11). -/
def init (threads : Nat) : State := ⟨0, 0, 0, false, false, List.replicate threads .idle⟩

/-- Decrement of an `unsigned int` (reader-writer-lock.cc:21, 27, 42, 58, 69). -/
def dec (n : Nat) : Nat := if n = 0 then 2 ^ 32 - 1 else n - 1

/-- Effect of `cv_readers_.notify_all()` on a thread (reader-writer-lock.cc:29, 60, 72). -/
def wakeR : Pc → Pc
  | .wr1Asleep => .wr1Woken
  | .upAsleep => .upWoken
  | p => p

/-- Effect of `cv_writer_finished_.notify_all()` on a thread (reader-writer-lock.cc:51). -/
def wakeW : Pc → Pc
  | .rdAsleep => .rdWoken
  | .wr2Asleep => .wr2Woken
  | p => p

/-- Thread `i` moves to `p` (reader-writer-lock.cc:15-75). -/
def State.goto (s : State) (i : Nat) (p : Pc) : State := { s with threads := s.threads.set i p }

/-- `cv_readers_.notify_all()` (reader-writer-lock.cc:29, 60, 72): every thread that sleeps there may go on. -/
def State.notifyReaders (s : State) : State := { s with threads := s.threads.map wakeR }
/-- `cv_writer_finished_.notify_all()` (reader-writer-lock.cc:51): every thread that sleeps there may go on. -/
def State.notifyWriterFinished (s : State) : State := { s with threads := s.threads.map wakeW }

/-- `pending_upgrade_ ? 1u : 0u` -/
def State.upgradeSlot (s : State) : Nat := if s.pendingUpgrade then 1 else 0

/-- The wait loop and the end of `acquireReadLock` (reader-writer-lock.cc:18-22;
reader-first-reader-writer-lock.cc:12-15). -/
def tryRead (v : Variant) (s : State) (i : Nat) : State :=
  match v with
  | .base =>
    if s.numPendingWriters ≠ 0 ∨ s.pendingUpgrade = true ∨ s.currentWriter = true then
      s.goto i .rdAsleep
    else
      { s with pendingReaders := dec s.pendingReaders, numReaders := s.numReaders + 1 }.goto i .reading
  | .readerFirst =>
    if s.currentWriter = true then s.goto i .rdAsleep
    else { s with numReaders := s.numReaders + 1 }.goto i .reading

/-- `acquireReadLock` (reader-writer-lock.cc:15-23; reader-first-reader-writer-lock.cc:10-16). -/
def acquireRead (v : Variant) (s : State) (i : Nat) : State :=
  match v with
  | .base => tryRead v { s with pendingReaders := s.pendingReaders + 1 } i
  | .readerFirst => tryRead v s i

/-- `releaseReadLock` (reader-writer-lock.cc:25-31). -/
def releaseRead (s : State) (i : Nat) : State :=
  let s1 := { s with numReaders := dec s.numReaders }.goto i .idle
  if s1.numReaders = s1.upgradeSlot then s1.notifyReaders else s1

/-- Second wait loop and end of `acquireWriteLock` (reader-writer-lock.cc:39-43). -/
def tryWrite2 (s : State) (i : Nat) : State :=
  if s.currentWriter = true ∨ s.pendingUpgrade = true then s.goto i .wr2Asleep
  else { s with numPendingWriters := dec s.numPendingWriters, currentWriter := true }.goto i .writing

/-- First wait loop of `acquireWriteLock` (reader-writer-lock.cc:36-38), then the second; for the reader-first variant
one turn of the outer loop starting at its top (reader-first-reader-writer-lock.cc:20-32). -/
def tryWrite1 (v : Variant) (s : State) (i : Nat) : State :=
  if s.numReaders > s.upgradeSlot then s.goto i .wr1Asleep
  else match v with
    | .base => tryWrite2 s i
    | .readerFirst =>
      if ¬ s.currentWriter = true ∧ ¬ s.pendingUpgrade = true then
        { s with currentWriter := true }.goto i .writing
      else s.goto i .wr2Asleep

/-- Continuation after a wake-up on `cv_writer_finished_` in `acquireWriteLock` (reader-writer-lock.cc:39-43;
reader-first-reader-writer-lock.cc:27-30, then back to the top of the outer loop). -/
def resumeWrite2 (v : Variant) (s : State) (i : Nat) : State :=
  match v with
  | .base => tryWrite2 s i
  | .readerFirst =>
    if s.currentWriter = true ∨ s.pendingUpgrade = true then s.goto i .wr2Asleep
    else tryWrite1 v s i

/-- `acquireWriteLock` (reader-writer-lock.cc:33-44; reader-first-reader-writer-lock.cc:18-33). -/
def acquireWrite (v : Variant) (s : State) (i : Nat) : State :=
  match v with
  | .base => tryWrite1 v { s with numPendingWriters := s.numPendingWriters + 1 } i
  | .readerFirst => tryWrite1 v s i

/-- Critical section of `releaseWriteLock` (reader-writer-lock.cc:47-50). -/
def releaseWrite (s : State) (i : Nat) : State :=
  { s with currentWriter := false }.goto i .relNotify

/-- Wait loop and end of `upgradeToWriteLock` (reader-writer-lock.cc:65-74). -/
def tryUpgrade (s : State) (i : Nat) : State :=
  if s.numReaders > 1 then s.goto i .upAsleep
  else
    let s1 := { s with
      pendingUpgrade := false
      numReaders := dec s.numReaders
      currentWriter := true }.goto i .writing
    if s1.numReaders = 0 then s1.notifyReaders else s1

/-- `upgradeToWriteLock` (reader-writer-lock.cc:55-75). The refused branch (57-63) returns `false` and leaves the
thread without a lock. -/
def upgrade (s : State) (i : Nat) : State :=
  if s.pendingUpgrade = true then
    let s1 := { s with numReaders := dec s.numReaders }.goto i .idle
    if s1.numReaders = 1 then s1.notifyReaders else s1
  else tryUpgrade { s with pendingUpgrade := true } i

/-- `isInUse` (reader-writer-lock.cc:77-85). -/
def isInUse (s : State) : Bool :=
  decide (s.pendingReaders > 0) || decide (s.numReaders > 0) || decide (s.numPendingWriters > 0) ||
    s.currentWriter || s.pendingUpgrade

/-- Steps; the number is the thread (reader-writer-lock.cc:15-85). -/
inductive Action where
  | acquireRead (i : Nat)
  | acquireWrite (i : Nat)
  | releaseRead (i : Nat)
  | releaseWrite (i : Nat)
  | upgrade (i : Nat)
  /-- a notified thread reacquires the mutex and continues -/
  | resume (i : Nat)
  /-- `notify_all` of `releaseWriteLock` (reader-writer-lock.cc:51) -/
  | notify (i : Nat)
  /-- spurious wake-up -/
  | spurious (i : Nat)
  deriving DecidableEq, Repr

/-- One step, `none` if not possible. Release/upgrade are only called by a thread that holds the
corresponding lock (usage protocol) (reader-writer-lock.cc:15-85). -/
def step (v : Variant) (s : State) : Action → Option State
  | .acquireRead i => if s.threads[i]? = some .idle then some (acquireRead v s i) else none
  | .acquireWrite i => if s.threads[i]? = some .idle then some (acquireWrite v s i) else none
  | .releaseRead i => if s.threads[i]? = some .reading then some (releaseRead s i) else none
  | .releaseWrite i => if s.threads[i]? = some .writing then some (releaseWrite s i) else none
  | .upgrade i => if s.threads[i]? = some .reading then some (upgrade s i) else none
  | .resume i =>
    match s.threads[i]? with
    | some .rdWoken => some (tryRead v s i)
    | some .wr1Woken => some (tryWrite1 v s i)
    | some .wr2Woken => some (resumeWrite2 v s i)
    | some .upWoken => some (tryUpgrade s i)
    | _ => none
  | .notify i =>
    if s.threads[i]? = some .relNotify then some ((s.goto i .idle).notifyWriterFinished) else none
  | .spurious i =>
    match s.threads[i]? with
    | some .rdAsleep => some (s.goto i .rdWoken)
    | some .wr1Asleep => some (s.goto i .wr1Woken)
    | some .wr2Asleep => some (s.goto i .wr2Woken)
    | some .upAsleep => some (s.goto i .upWoken)
    | _ => none

/-- Reachable states (reader-writer-lock.cc:6-85). -/
inductive Reachable (v : Variant) (n : Nat) : State → Prop
  | init : Reachable v n (init n)
  | step {s s' : State} {a : Action} : Reachable v n s → step v s a = some s' → Reachable v n s'

end Verif.RWLock
