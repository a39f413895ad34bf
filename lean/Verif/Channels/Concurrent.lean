import Verif.Channels.Model

/-!
# Channel groups and threads

Model of the locking in `aslam_cv_common/src/channel.cc`, `aslam_cv_common/include/aslam/common/channel.h` and
`.../channel-declaration.h`, and of the setters of frames in `aslam_cv_frames/src/visual-frame.cc`.

Each thread runs a list of calls. A call locks the mutexes it needs one after the other, then reads the groups, then
writes what it makes of them, and then lets go of the mutexes; between any two of these steps other threads may run.

Simplifications: memory is sequentially consistent; allocating an object or a group is atomic; a call that only reads
writes back what it has read, which is more than it does in C++. The groups stay alive while the threads run.
-/

namespace Verif.Channels.Concurrent

open Verif (Outcome)

/-- What a thread calls (channel.cc:15-47, channel.h:128-131, channel-declaration.h:26-137). -/
inductive Call where
  /-- `add_NAME_Channel` (channel-declaration.h:68-79, 125-137) -/
  | add (g : Nat) (n : String) (t : Ty)
  /-- `has_NAME_Channel` (channel-declaration.h:81-86, 118-123) -/
  | has (g : Nat) (n : String)
  /-- `remove_NAME_Channel` (channel-declaration.h:88-94) -/
  | remove (g : Nat) (n : String)
  /-- `cloneChannelGroup` (channel.cc:15-24) -/
  | clone (g : Nat)
  /-- `isChannelGroupEqual` (channel.cc:26-47) -/
  | compare (l r : Nat)
  /-- `get_NAME_Data(group) = v`: the reference is found under the mutex (channel-declaration.h:26-38, 103-116), the
  assignment comes later (visual-frame.cc:248-250) -/
  | assignTo (g : Nat) (n : String) (t : Ty) (v : Val)
  /-- the assignment to the object, without a mutex (visual-frame.cc:250) -/
  | poke (i : Nat) (v : Val)
  /-- a setter of a frame: the channel is added if there is none, then it is assigned to (visual-frame.cc:243-251) -/
  | setter (g : Nat) (n : String) (t : Ty) (v : Val)
  /-- `ChannelGroup::operator=` (channel.h:128-131) -/
  | assign (dst src : Nat)
  deriving DecidableEq, Repr

/-- What a call returns: as in the sequential model, or the object a reference refers to (channel-declaration.h:37). -/
inductive Res where
  | out (o : Out)
  | obj (i : Nat)
  deriving DecidableEq, Repr

/-- The mutexes of a call in the order in which they are locked (channel.cc:16, 28-32, channel-declaration.h:28, 71, 82,
90); `operator=` locks none (channel.h:128-131). -/
def locks : Call → List Nat
  | .add g _ _ => [g]
  | .has g _ => [g]
  | .remove g _ => [g]
  | .clone g => [g]
  | .compare l r => if l = r then [] else [l, r]
  | .assignTo g _ _ _ => [g]
  | .poke _ _ => []
  | .setter g _ _ _ => [g]
  | .assign _ _ => []

/-- The groups a call reads or writes; a group is not read to compare it with itself (channel.cc:15-47, channel.h:128-131, channel-declaration.h:26-137). -/
def uses : Call → List Nat
  | .add g _ _ => [g]
  | .has g _ => [g]
  | .remove g _ => [g]
  | .clone g => [g]
  | .compare l r => if l = r then [] else [l, r]
  | .assignTo g _ _ _ => [g]
  | .poke _ _ => []
  | .setter g _ _ _ => [g]
  | .assign d g => [d, g]

/-- A call of the sequential model; `ub` for groups that do not exist (channel-declaration.h:26-137). -/
def lift : Option (Outcome (Store × Out)) → Outcome (Store × Res)
  | none => .ub
  | some r => r.bind fun p => .ok (p.1, .out p.2)

/-- What a call does when it runs alone (channel.cc:15-47, channel.h:128-131, channel-declaration.h:26-137). The part of a
setter that is done under the first lock is the question whether the channel is there (visual-frame.cc:245). -/
def exec (s : Store) : Call → Outcome (Store × Res)
  | .add g n t => lift (step s (.add g n t))
  | .has g n => lift (step s (.has g n))
  | .remove g n => lift (step s (.remove g n))
  | .clone g => lift (step s (.clone g))
  | .assign d g => lift (step s (.assign d g))
  | .setter g n _ _ => lift (step s (.has g n))
  | .compare l r =>
    match s.groups[l]?, s.groups[r]? with
    | some a, some b => (isChannelGroupEqual s (decide (l = r)) a b).bind fun e => .ok (s, .out (.bool e))
    | _, _ => .ub
  | .assignTo g n t _ =>
    match s.groups[g]? with
    | some m => (resolve s m n t).bind fun i => .ok (s, .obj i)
    | none => .ub
  | .poke i v =>
    match s.objs[i]? with
    | some o => .ok ({ s with objs := s.objs.set i ⟨o.ty, v⟩ }, .out .unit)
    | none => .ub

/-- What follows a call because of its result: the assignment after the reference was found, and in a setter the channel is
added if it was not there (visual-frame.cc:245-250). -/
def after : Call → Res → List Call
  | .assignTo _ _ _ v, .obj i => [.poke i v]
  | .setter g n t v, .out (.bool false) => [.add g n t, .assignTo g n t v]
  | .setter g n t v, _ => [.assignTo g n t v]
  | _, _ => []

/-- Where a thread is in a call (channel.cc:31-46, channel-declaration.h:28-37). -/
inductive Phase where
  | idle
  /-- has `held` and still has to lock `need` -/
  | locking (c : Call) (held need : List Nat)
  /-- has read the groups it uses -/
  | loaded (c : Call) (held : List Nat) (snap : List (Nat × Group))
  /-- is done but for the mutexes -/
  | unlocking (held : List Nat)
  deriving DecidableEq, Repr

/-- A thread: the calls it has still to begin, and where it is (channel.cc:31-46). -/
structure Thread where
  todo : List Call
  phase : Phase
  deriving DecidableEq, Repr

/-- All threads, who holds the mutex of which group (channel.h:147), the calls that have had their effect, with their
results, and how the program died if it did. -/
structure State where
  store : Store
  owner : Nat → Option Nat
  threads : List Thread
  log : List (Nat × Call × Res)
  dead : Option Call

/-- The groups as a thread has read them (channel-declaration.h:29-30). -/
def snapshot (s : Store) (gs : List Nat) : List (Nat × Group) :=
  gs.filterMap fun g => (s.groups[g]?).map fun m => (g, m)

/-- What a thread believes the groups to be (channel-declaration.h:29-30). -/
def believe (s : Store) (snap : List (Nat × Group)) : Store :=
  { s with groups := snap.foldl (fun gs e => gs.set e.1 e.2) s.groups }

/-- One step of thread `t`; `none` if it is done, or waits for a mutex (channel.cc:31-46, channel-declaration.h:28-37). -/
def stepThread (s : State) (t : Nat) : Option State :=
  match s.dead with
  | some _ => none
  | none =>
  match s.threads[t]? with
  | none => none
  | some th =>
    match th.phase with
    | .idle =>
      match th.todo with
      | [] => none
      | c :: rest => some { s with threads := s.threads.set t ⟨rest, .locking c [] (locks c)⟩ }
    | .locking c held (g :: need) =>
      match s.owner g with
      | some _ => none
      | none => some { s with
          owner := fun x => if x = g then some t else s.owner x
          threads := s.threads.set t ⟨th.todo, .locking c (g :: held) need⟩ }
    | .locking c held [] =>
      some { s with threads := s.threads.set t ⟨th.todo, .loaded c held (snapshot s.store (uses c))⟩ }
    | .loaded c held snap =>
      match exec (believe s.store snap) c with
      | .ok (s', r) => some { s with
          store := s'
          log := s.log ++ [(t, c, r)]
          threads := s.threads.set t ⟨after c r ++ th.todo, .unlocking held⟩ }
      | _ => some { s with dead := some c }
    | .unlocking (g :: held) => some { s with
          owner := fun x => if x = g then none else s.owner x
          threads := s.threads.set t ⟨th.todo, .unlocking held⟩ }
    | .unlocking [] => some { s with threads := s.threads.set t ⟨th.todo, .idle⟩ }

/-- Before the first step: all mutexes are free (channel.h:147). -/
def State.start (s : Store) (progs : List (List Call)) : State :=
  ⟨s, fun _ => none, progs.map fun p => ⟨p, .idle⟩, [], none⟩

/-- Some steps, of the threads in the order given (channel.cc:31-46). -/
def runSchedule (s : State) : List Nat → Option State
  | [] => some s
  | t :: ts =>
    match stepThread s t with
    | none => none
    | some s' => runSchedule s' ts

end Verif.Channels.Concurrent
