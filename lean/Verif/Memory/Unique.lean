import Verif.Base.Outcome

/-!
# Aligned unique pointers

Model of `aligned_unique`, `aligned_delete` and `AlignedUniquePtr` in
`aslam_cv_common/include/aslam/common/memory.h`.

The heap is a list of blocks, each allocated for one object.  A program has variables of type `AlignedUniquePtr`; a
variable is null or holds the address of a block plus an offset, which is not zero after a conversion to a base class
that does not stand at the beginning of the object.
-/

namespace Verif.Memory

open Verif (Outcome)

/-- A block of the heap (memory.h:71-81): how often an object in it was constructed and destroyed, how often it was given
back. -/
structure Block where
  constructed : Nat
  destroyed : Nat
  freed : Nat
  deriving DecidableEq, Repr

/-- What a pointer variable holds (memory.h:66-69). -/
structure Ptr where
  block : Nat
  /-- distance from the beginning of the block -/
  offset : Nat
  /-- whether `~Type()` of the static type destroys the whole object: the type of the object itself, or a base class
  with a virtual destructor -/
  whole : Bool
  deriving DecidableEq, Repr

/-- The heap and the variables (memory.h:66-81). -/
structure State where
  heap : List Block
  vars : List (Option Ptr)
  deriving DecidableEq, Repr

/-- The beginning of a program (memory.h:66-69). -/
def State.start : State := ⟨[], []⟩

/-- `aligned_delete::operator()` (memory.h:56-62): destroying twice, giving back twice, and giving back an address that
was not handed out are undefined behaviour. -/
def delete (heap : List Block) (p : Ptr) : Outcome (List Block) :=
  match heap[p.block]? with
  | none => .ub
  | some b =>
    if b.freed = 0 ∧ b.destroyed < b.constructed then
      let b := if p.whole then { b with destroyed := b.destroyed + 1 } else b
      if p.offset = 0 then .ok (heap.set p.block { b with freed := b.freed + 1 }) else .ub
    else .ub

/-- Deleting what a variable holds; nothing for a null pointer (`std::unique_ptr`; memory.h:66-69). -/
def deleteOpt (heap : List Block) : Option Ptr → Outcome (List Block)
  | none => .ok heap
  | some p => delete heap p

/-- Calls of a program (memory.h:46-81). -/
inductive Op where
  /-- `aligned_unique<Type>(…)` into a new variable; `throws`: the constructor throws -/
  | make (throws : Bool)
  /-- a new variable that is null -/
  | null
  /-- `dst = std::move(src)` -/
  | move (dst src : Nat)
  /-- the same with a conversion to a base class at a distance, whose destructor is virtual or not -/
  | toBase (dst src offset : Nat) (virtualDestructor : Bool)
  /-- `reset()` -/
  | reset (v : Nat)
  /-- the end of the scope: all variables are destroyed -/
  | leave
  deriving DecidableEq, Repr

/-- Moving into a variable (`std::unique_ptr::operator=`; memory.h:52-54, 66-69): the source becomes null, then the old object of the
destination is deleted. -/
def assign (s : State) (dst : Nat) (src : Nat) (conv : Ptr → Ptr) : Outcome State :=
  match s.vars[src]?, s.vars[dst]? with
  | some p, some _ =>
    let vars := s.vars.set src none
    match vars[dst]? with
    | none => .ub
    | some old => do
      let heap ← deleteOpt s.heap old
      .ok ⟨heap, vars.set dst (p.map conv)⟩
  | _, _ => .ok s

/-- Destroying the variables of a scope (memory.h:66-69). -/
def deleteAll : List Block → List (Option Ptr) → Outcome (List Block)
  | heap, [] => .ok heap
  | heap, p :: ps => deleteOpt heap p >>= fun heap => deleteAll heap ps

/-- One call (memory.h:46-81).  The second component says whether an exception came out (and was caught by the caller).
Calls for variables that do not exist do nothing. -/
def step (s : State) : Op → Outcome (State × Bool)
  | .make true => .ok (⟨s.heap ++ [⟨0, 0, 0⟩], s.vars⟩, true)
  | .make false => .ok (⟨s.heap ++ [⟨1, 0, 0⟩], s.vars ++ [some ⟨s.heap.length, 0, true⟩]⟩, false)
  | .null => .ok (⟨s.heap, s.vars ++ [none]⟩, false)
  | .move dst src => assign s dst src id >>= fun s => .ok (s, false)
  | .toBase dst src off virt =>
    assign s dst src (fun p => ⟨p.block, p.offset + off, p.whole && virt⟩) >>= fun s => .ok (s, false)
  | .reset v =>
    match s.vars[v]? with
    | none => .ok (s, false)
    | some p => deleteOpt s.heap p >>= fun heap => .ok (⟨heap, s.vars.set v none⟩, false)
  | .leave => deleteAll s.heap s.vars >>= fun heap => .ok (⟨heap, []⟩, false)

/-- A program (memory.h:46-81). -/
def run (s : State) : List Op → Outcome State
  | [] => .ok s
  | op :: ops => step s op >>= fun r => run r.1 ops

end Verif.Memory
