import Verif.DescriptorRef.Model

/-!
# Comparison of descriptor references

Model of `operator==` of `FeatureDescriptorRefBase` (feature-descriptor-ref-inl.h:49-61) on the memory of
`Verif/DescriptorRef/Model.lean`.
-/

namespace Verif.DescriptorRef

open Verif (Outcome)

/-- `memcmp(a, b, n) == 0` (feature-descriptor-ref-inl.h:58); undefined for memory that is not there. -/
def memcmpEq (n a b : Nat) (heap : List Block) : Outcome Bool :=
  match heap[a]?, heap[b]? with
  | some x, some y =>
    if x.live = true ∧ y.live = true ∧ n ≤ x.bytes.length ∧ n ≤ y.bytes.length then
      .ok (decide (x.bytes.take n = y.bytes.take n))
    else .ub
  | _, _ => .ub

/-- `operator==` (feature-descriptor-ref-inl.h:49-61). -/
def refEq (r l : Ref) (heap : List Block) : Outcome Bool :=
  let same := (r.data.isSome == l.data.isSome) && (r.size == l.size)
  match r.data, l.data with
  | some a, some b => if same then memcmpEq r.size a b heap else .ok same
  | _, _ => .ok same

/-- `a == b` for references by number (feature-descriptor-ref-inl.h:49-61). -/
def equal (i j : Nat) (w : World) : Outcome Bool :=
  get i w >>= fun r => get j w >>= fun l => refEq r l w.heap

end Verif.DescriptorRef
