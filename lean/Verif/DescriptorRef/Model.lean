import Verif.Base.Outcome

/-!
# Ownership of descriptor memory

Model of the class `FeatureDescriptorRefBase<unsigned char, WriteAccessors>` (`FeatureDescriptorRef`) of
`aslam_cv_common/include/aslam/common/feature-descriptor-ref.h` and `feature-descriptor-ref-inl.h`.

Memory is a list of blocks; a block is never reused after it was freed.  Blocks of `ext` belong to somebody else (a
descriptor matrix, say) and outlive the references.  Pointers always point to the start of a block.  The contents of a
new block are unspecified in the code and zero here.  The constructor and the setter that take over a raw pointer with
`owned = true` are left out.
-/

namespace Verif.DescriptorRef

open Verif (Outcome)

/-- A block of memory (feature-descriptor-ref-inl.h:76-78, 96). -/
structure Block where
  live : Bool
  ext : Bool
  bytes : List UInt8
  deriving DecidableEq, Repr

/-- A reference (feature-descriptor-ref.h:50-53, 94); `alive` is false once it has been destroyed. -/
structure Ref where
  alive : Bool
  owned : Bool
  data : Option Nat
  size : Nat
  deriving DecidableEq, Repr

/-- Memory and all references ever created, in order of creation (feature-descriptor-ref.h:50-53, 94). -/
structure World where
  heap : List Block
  refs : List Ref
  deriving DecidableEq, Repr

/-- `delete[]`: undefined for a block that is not live or not from `new[]` (feature-descriptor-ref-inl.h:82). -/
def free (p : Nat) (heap : List Block) : Outcome (List Block) :=
  match heap[p]? with
  | some b => if b.live = true ∧ b.ext = false then .ok (heap.set p { b with live := false }) else .ub
  | none => .ub

/-- `Release` (feature-descriptor-ref-inl.h:80-86); deleting a null pointer does nothing. -/
def release (r : Ref) (heap : List Block) : Outcome (Ref × List Block) :=
  if r.owned then
    (match r.data with
      | some p => free p heap
      | none => .ok heap) >>= fun h => .ok ({ r with data := none, owned := false }, h)
  else .ok (r, heap)

/-- `Allocate` (feature-descriptor-ref-inl.h:88-98). -/
def allocate (n : Nat) (r : Ref) (heap : List Block) : Outcome (Ref × List Block) :=
  if n = r.size ∧ r.owned = true then .ok (r, heap)
  else release r heap >>= fun x =>
    .ok ({ x.1 with owned := true, size := n, data := some x.2.length }, x.2 ++ [⟨true, false, List.replicate n 0⟩])

/-- `memcpy` of `n` bytes (feature-descriptor-ref-inl.h:112, 128). -/
def memcpy (n : Nat) (src dst : Option Nat) (heap : List Block) : Outcome (List Block) :=
  if n = 0 then .ok heap
  else match src, dst with
    | some s, some d =>
      match heap[s]?, heap[d]? with
      | some bs, some bd =>
        if bs.live = true ∧ bd.live = true ∧ n ≤ bs.bytes.length ∧ n ≤ bd.bytes.length then
          .ok (heap.set d { bd with bytes := bs.bytes.take n ++ bd.bytes.drop n })
        else .ub
      | _, _ => .ub
    | _, _ => .ub

/-- `operator=` from another reference (feature-descriptor-ref-inl.h:100-119). -/
def assign (r l : Ref) (heap : List Block) : Outcome (Ref × List Block) :=
  if r.owned = true ∨ l.owned = true then
    allocate l.size r heap >>= fun x => memcpy l.size l.data x.1.data x.2 >>= fun h => .ok (x.1, h)
  else .ok ({ r with owned := l.owned, size := l.size, data := l.data }, heap)

/-- The copy constructor (feature-descriptor-ref-inl.h:121-134).  If the original owns its memory, `Allocate` reads the
member `owned_` that has not been initialised yet: `g` is the value that it happens to have, or `none` for the reading
of the C++ standard that the behaviour is undefined. -/
def copy (g : Option Bool) (l : Ref) (heap : List Block) : Outcome (Ref × List Block) :=
  if l.owned = true then
    match g with
    | some g =>
      allocate l.size ⟨true, g, none, 0⟩ heap >>= fun x =>
        memcpy l.size l.data x.1.data x.2 >>= fun h => .ok (x.1, h)
    | none => .ub
  else .ok (⟨true, false, l.data, l.size⟩, heap)

/-- Operations: the default constructor (feature-descriptor-ref-inl.h:63-66), the one that allocates
(feature-descriptor-ref-inl.h:76-78), the one that refers to memory of somebody else
(feature-descriptor-ref-inl.h:68-71), copying, assigning, `Allocate`, `Release`, the destructor
(feature-descriptor-ref-inl.h:142-145) and writing a byte through `operator[]` (feature-descriptor-ref-inl.h:179-183).
-/
inductive Op where
  | new
  | newAlloc (n : Nat)
  | newBorrow (p n : Nat)
  | copy (j : Nat) (g : Option Bool)
  | assign (i j : Nat)
  | allocate (i n : Nat)
  | release (i : Nat)
  | destroy (i : Nat)
  | write (i k : Nat) (v : UInt8)

/-- A reference that exists; using another is undefined (the object of a call, feature-descriptor-ref-inl.h:63-189). -/
def get (i : Nat) (w : World) : Outcome Ref :=
  match w.refs[i]? with
  | some r => if r.alive then .ok r else .ub
  | none => .ub

/-- `operator[]` and an assignment to it (feature-descriptor-ref-inl.h:179-183). -/
def write (k : Nat) (v : UInt8) (r : Ref) (heap : List Block) : Outcome (List Block) :=
  if k < r.size then
    match r.data with
    | some p =>
      match heap[p]? with
      | some b =>
        if b.live = true ∧ k < b.bytes.length then .ok (heap.set p { b with bytes := b.bytes.set k v }) else .ub
      | none => .ub
    | none => .ub
  else .abort

/-- One operation (feature-descriptor-ref-inl.h:63-189). -/
def step (w : World) : Op → Outcome World
  | .new => .ok ⟨w.heap, w.refs ++ [⟨true, false, none, 0⟩]⟩
  | .newAlloc n =>
    .ok ⟨w.heap ++ [⟨true, false, List.replicate n 0⟩], w.refs ++ [⟨true, true, some w.heap.length, n⟩]⟩
  | .newBorrow p n => .ok ⟨w.heap, w.refs ++ [⟨true, false, some p, n⟩]⟩
  | .copy j g => get j w >>= fun l => copy g l w.heap >>= fun x => .ok ⟨x.2, w.refs ++ [x.1]⟩
  | .assign i j =>
    if i = j then get i w >>= fun _ => .ok w
    else get i w >>= fun r => get j w >>= fun l => assign r l w.heap >>= fun x => .ok ⟨x.2, w.refs.set i x.1⟩
  | .allocate i n => get i w >>= fun r => allocate n r w.heap >>= fun x => .ok ⟨x.2, w.refs.set i x.1⟩
  | .release i => get i w >>= fun r => release r w.heap >>= fun x => .ok ⟨x.2, w.refs.set i x.1⟩
  | .destroy i => get i w >>= fun r =>
    release r w.heap >>= fun x => .ok ⟨x.2, w.refs.set i { x.1 with alive := false }⟩
  | .write i k v => get i w >>= fun r => write k v r w.heap >>= fun h => .ok ⟨h, w.refs⟩

/-- A sequence of operations (feature-descriptor-ref-inl.h:63-189). -/
def run : List Op → World → Outcome World
  | [], w => .ok w
  | o :: os, w => step w o >>= run os

end Verif.DescriptorRef
