/-!
# Hashes of matrices

Model of `aslam_cv_common/include/aslam/common/eigen-hash.h`: `std::hash` for `Eigen::Matrix`.

`size_t` has 64 bits.  The hash of an element is a parameter; a matrix is its size and its elements in storage order
(column by column).
-/

namespace Verif.Memory

/-- A matrix with its storage, column by column (eigen-hash.h:13-16). -/
structure Matrix (α : Type) where
  rows : Nat
  cols : Nat
  data : List α
  deriving DecidableEq, Repr

/-- One turn of the loop (eigen-hash.h:16-18). -/
def mix (seed h : BitVec 64) : BitVec 64 :=
  seed ^^^ (h + 0x9e3779b9#64 + (seed <<< 6) + (seed >>> 2))

/-- `operator()` (eigen-hash.h:13-21). -/
def hash {α : Type} (elem : α → BitVec 64) (m : Matrix α) : BitVec 64 :=
  m.data.foldl (fun seed x => mix seed (elem x)) 0#64

/-- An unordered map with this hash, as its buckets (the library; the containers are declared at memory.h:24-38): a key
is looked for in the bucket of its hash only. -/
structure Table (α β : Type) where
  count : Nat
  bucket : Nat → List (Matrix α × β)

/-- The bucket of a hash (the library; memory.h:24-38). -/
def index (count : Nat) (h : BitVec 64) : Nat := h.toNat % count

/-- `find` (the library; memory.h:24-38); `same` is `operator==` of matrices. -/
def Table.find {α β : Type} (elem : α → BitVec 64) (same : Matrix α → Matrix α → Bool) (t : Table α β)
    (k : Matrix α) : Option β :=
  ((t.bucket (index t.count (hash elem k))).find? (fun e => same e.1 k)).map Prod.snd

/-- `emplace` (the library; memory.h:24-38): nothing happens if the key is there. -/
def Table.emplace {α β : Type} (elem : α → BitVec 64) (same : Matrix α → Matrix α → Bool) (t : Table α β)
    (k : Matrix α) (v : β) : Table α β :=
  match t.find elem same k with
  | some _ => t
  | none =>
    { t with bucket := fun i => if i = index t.count (hash elem k) then (k, v) :: t.bucket i else t.bucket i }

/-- An empty table (the library; memory.h:24-38). -/
def Table.empty (α β : Type) (count : Nat) : Table α β := ⟨count, fun _ => []⟩

/-- Many insertions (the library; memory.h:24-38). -/
def Table.emplaceAll {α β : Type} (elem : α → BitVec 64) (same : Matrix α → Matrix α → Bool) :
    List (Matrix α × β) → Table α β → Table α β
  | [], t => t
  | e :: es, t => emplaceAll elem same es (t.emplace elem same e.1 e.2)

end Verif.Memory
