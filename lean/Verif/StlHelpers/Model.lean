import Verif.Base.Outcome
import Mathlib.Data.Rat.Defs
import Mathlib.Algebra.Order.Ring.Unbundled.Rat

/-!
# Container helpers

Model of `aslam_cv_common/include/aslam/common/stl-helpers.h` and `.../stl-helpers-inl.h`.

The standard algorithms `std::partial_sort` and `std::nth_element` and the iteration order of
`std::unordered_set` are not determined by the C++ standard; they are parameters here, and theorems hold
for every implementation the standard allows.  `double` values are exact rationals.
-/

namespace Verif.StlHelpers

open Verif (Outcome)

variable {α : Type}

/-! ### Standard algorithms, as specified by the C++ standard -/

/-- What `std::partial_sort(begin, begin + m, end, lt)` may do: permute the range so that its first
`m` elements are sorted and none of the others precedes any of them (stl-helpers.h:123-162). -/
structure IsPartialSort (lt : α → α → Bool) (m : Nat) (l l' : List α) : Prop where
  perm : l'.Perm l
  sorted : (l'.take m).Pairwise (fun a b => lt b a = false)
  front : ∀ a ∈ l'.take m, ∀ b ∈ l'.drop m, lt b a = false

/-- What `std::nth_element(begin, begin + k, end)` may do (stl-helpers.h:29-46). -/
structure IsNth (k : Nat) (l l' : List ℚ) : Prop where
  perm : l'.Perm l
  before : ∀ a ∈ l'.take k, ∀ x, l'[k]? = some x → a ≤ x
  after : ∀ b ∈ l'.drop k, ∀ x, l'[k]? = some x → x ≤ b

/-! ### `countNumberOfElementsInNestedList`, `median`, `mean` -/

/-- `countNumberOfElementsInNestedList` (stl-helpers.h:19-27); sizes are below `2^64`. -/
def countNested (l : List (List α)) : Nat := l.foldl (fun n inner => n + inner.length) 0

/-- `median` (stl-helpers.h:29-46); `nth` is `std::nth_element`.  Returns the value; the range is left
permuted. -/
def median (nth : Nat → List ℚ → List ℚ) (l : List ℚ) : Outcome ℚ :=
  if l.length = 0 then .abort
  else
    let mid := l.length / 2
    let l1 := nth mid l
    match l1[mid]? with
    | none => .ub
    | some high =>
      if l.length % 2 ≠ 0 then .ok high
      else
        let l2 := nth (mid - 1) l1
        match l2[mid - 1]? with
        | none => .ub
        | some low => .ok ((high + low) / 2)

/-- `mean` (stl-helpers.h:49-60). -/
def mean (l : List ℚ) : Outcome ℚ :=
  if l.length = 0 then .abort else .ok (l.foldl (· + ·) 0 / (l.length : ℚ))

/-! ### `drawNRandomElements` -/

/-- `while (random_indices.size() < n) random_indices.insert(distribution(generator))`
(stl-helpers.h:101-104) on a finite prefix of the random stream; `none` if the prefix is used up and
the loop still runs. -/
def drawIndices (n : Nat) : List Nat → List Nat → Option (List Nat)
  | draws, set =>
    if set.length < n then
      match draws with
      | [] => none
      | d :: ds => drawIndices n ds (if d ∈ set then set else d :: set)
    else some set
  termination_by draws _ => draws.length

/-- `CHECK_LT(idx, num_input_elements); output->emplace_back(input[idx])` (stl-helpers.h:109-110). -/
def pick (input : List α) (acc : Outcome (List α)) (i : Nat) : Outcome (List α) :=
  acc.bind fun out =>
    match input[i]? with
    | some x => .ok (out ++ [x])
    | none => .abort

/-- `drawNRandomElements` (stl-helpers.h:81-112).  `draws` are the values of
`uniform_int_distribution(0, size - 1)`, `order` is the iteration order of the `unordered_set`. -/
def drawN (n : Nat) (input : List α) (draws : List Nat) (order : List Nat → List Nat) :
    Option (Outcome (List α)) :=
  if n = 0 then some .abort
  else if input.length ≤ n then some (.ok input)
  else
    match drawIndices n draws [] with
    | none => none
    | some set => some ((order set).foldl (pick input) (.ok []))

/-! ### `keepOnlyNSortedElements` -/

/-- `keepOnlyNSortedElements` (stl-helpers.h:123-162): the container afterwards and the elements the
action was run on, in order; `psort m` is `std::partial_sort` with middle `m`. -/
def keepOnlyN (psort : Nat → List α → List α) (n : Nat) (l : List α) : List α × List α :=
  if n = 0 then ([], l)
  else if l.length ≤ n then (l, [])
  else
    let l' := psort n l
    (l'.take n, l'.drop n)

/-! ### Erasing indices -/

/-- `std::copy(begin + b, begin + e, back_inserter(out))`; undefined for an invalid range (stl-helpers.h:203-212). -/
def copyRange (data : List α) (b e : Nat) (out : List α) : Outcome (List α) :=
  if b ≤ e ∧ e ≤ data.length then .ok (out ++ (data.drop b).take (e - b)) else .ub

/-- A block is copied unless it is empty (stl-helpers.h:203-205, 210-212). -/
def copyBlock (data : List α) (b e : Nat) (out : List α) : Outcome (List α) :=
  if b ≠ e then copyRange data b e out else .ok out

/-- The loop over the sorted indices and the copy of the last block (stl-helpers.h:197-213). -/
def eraseLoop (data : List α) : List Nat → Nat → List α → Outcome (List α)
  | [], b, out => copyBlock data b data.length out
  | i :: is, b, out => do
    let out ← copyBlock data b i out
    eraseLoop data is (i + 1) out

/-- `eraseIndicesFromVector` (stl-helpers.h:182-214). -/
def eraseIndicesFromVector (data : List α) (idxs : List Nat) : Outcome (List α) :=
  if idxs.isEmpty then .ok data
  else
    let sorted := idxs.mergeSort (fun a b => decide (a ≤ b))
    match sorted.getLast? with
    | none => .ub
    | some last => do
      Outcome.check (decide (last < data.length))
      Outcome.check (decide (sorted.length ≤ data.length))
      eraseLoop data sorted 0 []

/-- `static_cast<int>(size_t)` (stl-helpers-inl.h:113-153). -/
def toInt32 (n : Nat) : Int :=
  let m : Nat := n % 2 ^ 32
  if m < 2 ^ 31 then (m : Int) else (m : Int) - 2 ^ 32

/-- `internal::copyMiddle` (stl-helpers-inl.h:12-54) on the columns (or rows) of Eigen matrices; ranges
outside of either matrix fail an Eigen assertion or, without assertions, are undefined. -/
def copyMiddle (srcStart dstStart size : Int) (src dst : List α) : Outcome (List α) :=
  if 0 ≤ srcStart ∧ 0 ≤ dstStart ∧ 0 ≤ size ∧ srcStart + size ≤ src.length ∧
      dstStart + size ≤ dst.length then
    .ok (dst.take dstStart.toNat ++ (src.drop srcStart.toNat).take size.toNat ++
      dst.drop (dstStart + size).toNat)
  else .ub

/-- The loop of the Eigen version (stl-helpers-inl.h:136-150); the `int` variables do not overflow for
counts below `2^31`. -/
def eigenEraseLoop (src : List α) (count : Nat) :
    List Nat → Int → Int → List α → Outcome (List α)
  | [], fill, start, dst => copyMiddle start fill (count - start) src dst
  | i :: is, fill, start, dst => do
    Outcome.check (decide (start ≤ toInt32 i))
    let block := toInt32 i - start
    let dst ← copyMiddle start fill block src dst
    eigenEraseLoop src count is (fill + block) (toInt32 i + 1) dst

/-- `eraseIndicesFromContainer` for Eigen matrices (stl-helpers-inl.h:113-153).  `src` is the list of
columns (rows) of the matrix, `junk` the uninitialised content of a new one.  `back()` of an empty
vector is undefined. -/
def eigenErase (junk : α) (idxs : List Nat) (count : Nat) (src : List α) : Outcome (List α) := do
  Outcome.check (decide (src.length = count))
  match idxs.getLast? with
  | none => .ub
  | some last => do
    Outcome.check (decide (last < count))
    Outcome.check (decide (idxs.length ≤ count))
    eigenEraseLoop src count idxs 0 0 (List.replicate (count - idxs.length) junk)

/-- `eraseIndicesFromContainer` for `std::vector` (stl-helpers-inl.h:155-165). -/
def vectorEraseFromContainer (idxs : List Nat) (count : Nat) (src : List α) : Outcome (List α) := do
  Outcome.check (decide (count = src.length))
  eraseIndicesFromVector src idxs

end Verif.StlHelpers
