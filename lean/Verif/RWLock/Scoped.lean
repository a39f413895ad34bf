import Verif.RWLock.Model

/-!
# Model of `ScopedReadLock` and `ScopedWriteLock`

Source: `aslam_cv_common/src/reader-writer-lock.cc:87-111`, `aslam_cv_common/include/aslam/common/reader-writer-lock.h:42-64`.

Any number of threads with any number of scoped locks on one mutex of either class.  Every lock that is asked for is one
place in the list of the model of the mutex (`RWLock.State.threads`): the mutex does not know which thread calls it, so a
thread may stand at several places.  A thread that is in a constructor or a destructor does nothing else.
A null pointer for the mutex aborts the constructor (`CHECK_NOTNULL`); locks of several mutexes are not modelled.
-/

namespace Verif.RWLock.Scoped

/-- A scoped lock (reader-writer-lock.h:42-64): the thread whose code makes and destroys it, its class, and `rw_lock_`:
the place at the mutex that it stands for, none for a null pointer. -/
structure Obj where
  owner : Nat
  write : Bool
  place : Option Nat
  deriving DecidableEq, Repr

/-- The mutex and the scoped locks made so far, none for those that were destroyed. -/
structure State where
  mutex : RWLock.State
  objs : List (Option Obj)
  deriving DecidableEq, Repr

/-- A mutex with up to `n` locks at a time and no scoped lock (reader-writer-lock.cc:6-11). -/
def init (n : Nat) : State := ⟨RWLock.init n, []⟩

/-- The lock is in its constructor or its destructor: waiting for the mutex, or between unlocking and notifying. -/
def Obj.inCall (m : RWLock.State) (o : Obj) : Bool :=
  match o.place with
  | none => false
  | some i =>
    match m.threads[i]? with
    | some .reading => false
    | some .writing => false
    | _ => true

/-- The thread is in a constructor or a destructor. -/
def State.busy (s : State) (t : Nat) : Bool :=
  s.objs.any fun
    | none => false
    | some o => o.owner == t && o.inCall s.mutex

/-- What threads do; the first number is the thread, or the lock if its thread is in a call. -/
inductive Action where
  /-- `ScopedReadLock(&mutex)` or `ScopedWriteLock(&mutex)`, at a place that is not in use -/
  | make (t : Nat) (write : Bool) (i : Nat)
  /-- `ScopedReadLock(std::move(k))` or `ScopedWriteLock(std::move(k))`, for the code of thread `t'` -/
  | move (t k t' : Nat)
  /-- the destructor -/
  | destroy (t k : Nat)
  /-- the `notify_all` at the end of the destructor of a write lock -/
  | finish (k : Nat)
  /-- a notified constructor goes on -/
  | resume (k : Nat)
  /-- spurious wake-up -/
  | spurious (k : Nat)
  deriving DecidableEq, Repr

/-- One step, none if it is not possible (reader-writer-lock.cc:87-111). -/
def step (v : Variant) (s : State) : Action → Option State
  | .make t w i =>
    if s.busy t then none
    else do
      let m ← RWLock.step v s.mutex (if w then .acquireWrite i else .acquireRead i)
      some ⟨m, s.objs ++ [some ⟨t, w, some i⟩]⟩
  | .move t k t' =>
    match s.objs[k]? with
    | some (some o) =>
      if o.owner = t ∧ s.busy t = false then
        some { s with objs := s.objs.set k (some { o with place := none }) ++ [some { o with owner := t' }] }
      else none
    | _ => none
  | .destroy t k =>
    match s.objs[k]? with
    | some (some o) =>
      if o.owner = t ∧ s.busy t = false then
        match o.place with
        | none => some { s with objs := s.objs.set k none }
        | some i =>
          if o.write then do
            let m ← RWLock.step v s.mutex (.releaseWrite i)
            some ⟨m, s.objs⟩
          else do
            let m ← RWLock.step v s.mutex (.releaseRead i)
            some ⟨m, s.objs.set k none⟩
      else none
    | _ => none
  | .finish k =>
    match s.objs[k]? with
    | some (some ⟨_, _, some i⟩) => do
      let m ← RWLock.step v s.mutex (.notify i)
      some ⟨m, s.objs.set k none⟩
    | _ => none
  | .resume k =>
    match s.objs[k]? with
    | some (some ⟨_, _, some i⟩) => do
      let m ← RWLock.step v s.mutex (.resume i)
      some ⟨m, s.objs⟩
    | _ => none
  | .spurious k =>
    match s.objs[k]? with
    | some (some ⟨_, _, some i⟩) => do
      let m ← RWLock.step v s.mutex (.spurious i)
      some ⟨m, s.objs⟩
    | _ => none

/-- Everything that can happen from a state on. -/
inductive Leads (v : Variant) : State → State → Prop
  | refl (s : State) : Leads v s s
  | step {s s' s'' : State} {a : Action} : Leads v s s' → step v s' a = some s'' → Leads v s s''

end Verif.RWLock.Scoped
