import Verif.Base.Outcome

/-!
# Pairwise distances of descriptors

Model of `pairwiseEuclidianDistances` (descriptor-utils.h:196-212).  A descriptor matrix is the list of its columns.
The scalars of the matrix *and of the result* are `unsigned char` (descriptor-utils.h:18-20), and so are Eigen's
differences, squares, sums and the converted square root.
-/

namespace Verif.Descriptor

open Verif (Outcome)

/-- `(b - a).squaredNorm()` of two columns in `unsigned char` arithmetic (descriptor-utils.h:207): every operation is
modulo 256. -/
def squaredNorm8 : List UInt8 → List UInt8 → UInt8
  | x :: xs, y :: ys => (y - x) * (y - x) + squaredNorm8 xs ys
  | _, _ => 0

/-- `(b - a).norm()` (descriptor-utils.h:207): the `double` square root is converted back to `unsigned char`, which
drops the fraction; below 256 the `double` square root has the right integer part. -/
def norm8 (a b : List UInt8) : UInt8 := UInt8.ofNat (Nat.sqrt (squaredNorm8 a b).toNat)

/-- Column `i` of the matrix; only asked for columns that exist. -/
def column (cols : List (List UInt8)) (i : Nat) : List UInt8 := cols.getD i []

/-- The loop over `j` (descriptor-utils.h:205-209) over the indices given; the state is `*result` and `result_index`.
Writing past the end of the result is undefined. -/
def fillInner (cols : List (List UInt8)) (i : Nat) :
    List Nat → List UInt8 × Nat → Outcome (List UInt8 × Nat)
  | [], s => .ok s
  | j :: js, (r, k) =>
    if k < r.length then fillInner cols i js (r.set k (norm8 (column cols i) (column cols j)), k + 1) else .ub

/-- The loop over `i` (descriptor-utils.h:204-210) over the indices given. -/
def fillOuter (cols : List (List UInt8)) : List Nat → List UInt8 × Nat → Outcome (List UInt8 × Nat)
  | [], s => .ok s
  | i :: is, s =>
    fillInner cols i (List.range' (i + 1) (cols.length - (i + 1))) s >>= fillOuter cols is

/-- `pairwiseEuclidianDistances` (descriptor-utils.h:198-212) with a result that is not null; `junk` is what `resize`
leaves in the result.  The product of line 202 is one of `int`s, which must not overflow. -/
def pairwise (cols : List (List UInt8)) (junk : Nat → UInt8) : Outcome (List UInt8) :=
  if cols.length * (cols.length - 1) < 2 ^ 31 then
    fillOuter cols (List.range cols.length)
      ((List.range (cols.length * (cols.length - 1) / 2)).map junk, 0) >>= fun s => .ok s.1
  else .ub

end Verif.Descriptor
