import Verif.Base.Outcome
import Mathlib.Data.Rat.Defs
import Mathlib.Algebra.Order.Ring.Unbundled.Rat

/-!
# YAML nodes and Eigen matrices

Model of `YAML::safeGet`, `YAML::hasKey` (`aslam_cv_common/include/aslam/common/yaml-serialization.h`) and of the
conversion between Eigen matrices and YAML nodes
(`aslam_cv_common/include/aslam/common/yaml-serialization-eigen.h`).

A node of yaml-cpp is a tree; a node that is not there is `none`.  A scalar is a text, and how numbers and truth values
are written and read is the business of yaml-cpp: `Codec`.  Its laws say that integers that fit and truth values
survive, and that an integer that is read fits; whether a `double` survives depends on the version of yaml-cpp (16 or 17 digits), so there is no law about it
and theorems name the numbers that have to survive.  A YAML exception is `Outcome.exc`.  Writing the text of a file and
parsing it are not modelled.
-/

namespace Verif.Yaml

open Verif (Outcome)

/-- A node of yaml-cpp; the order of the entries of a map is the order in which they were added.
This is the library; it is used at yaml-serialization-eigen.h:14-200. -/
inductive Node where
  | null
  | scalar (text : String)
  | seq (elems : List Node)
  | map (entries : List (String × Node))

/-- How yaml-cpp writes and reads scalars: `double`, `Eigen::Index`, unsigned integers of `b` bits, `bool`
(yaml-serialization.h:28-48, yaml-serialization-eigen.h:15-198). -/
structure Codec where
  numText : ℚ → String
  numRead : String → Option ℚ
  intText : Int → String
  intRead : String → Option Int
  natText : Nat → String
  natRead : Nat → String → Option Nat
  boolText : Bool → String
  boolRead : String → Option Bool
  int_law : ∀ n : Int, -2 ^ 63 ≤ n → n < 2 ^ 63 → intRead (intText n) = some n
  nat_law : ∀ b n : Nat, n < 2 ^ b → natRead b (natText n) = some n
  nat_range : ∀ (b : Nat) (s : String) (n : Nat), natRead b s = some n → n < 2 ^ b
  bool_law : ∀ b : Bool, boolRead (boolText b) = some b

/-- A number that comes back when its text is read (yaml-serialization-eigen.h:15-198). -/
def Codec.Exact (C : Codec) (x : ℚ) : Prop := C.numRead (C.numText x) = some x

/-- The entry of a map under a key (yaml-serialization.h:28-57). -/
def find (m : List (String × Node)) (k : String) : Option Node :=
  match m with
  | [] => none
  | (a, v) :: r => if a = k then some v else find r k

/-- `node[key]` of a constant map (yaml-serialization.h:28-57). -/
def Node.get (n : Node) (k : String) : Option Node :=
  match n with
  | .map m => find m k
  | _ => none

/-- Assigning to an entry: in its place if the key is there, otherwise at the end (sensor.cc:76-88). -/
def insert (m : List (String × Node)) (k : String) (v : Node) : List (String × Node) :=
  match m with
  | [] => [(k, v)]
  | (a, w) :: r => if a = k then (a, v) :: r else (a, w) :: insert r k v

/-- `node[key] = value`: a null node becomes a map.  (A scalar or a sequence is never assigned to here; for them the
model leaves the node alone.)  This is the library; it is used at yaml-serialization-eigen.h:20-36. -/
def Node.set (n : Node) (k : String) (v : Node) : Node :=
  match n with
  | .null => .map [(k, v)]
  | .map m => .map (insert m k v)
  | n => n

/-- `IsMap` (yaml-serialization.h:28-57). -/
def Node.isMap : Node → Bool
  | .map _ => true
  | _ => false

/-- `node.as<T>()` for a type that is written as one scalar; anything else throws (yaml-serialization.h:28-48). -/
def asScalar {α : Type} (read : String → Option α) : Node → Outcome α
  | .scalar s =>
    match read s with
    | some v => .ok v
    | none => .exc
  | _ => .exc

/-- `node.as<T>()` of an entry that may not be there: a missing node throws (yaml-serialization-eigen.h:43-105). -/
def asOf {α : Type} (as : Node → Outcome α) : Option Node → Outcome α
  | some n => as n
  | none => .exc

/-- `safeGet` (yaml-serialization.h:28-48); `none` is the return value false, in which case the output is untouched. -/
def safeGet {α : Type} (n : Node) (key : String) (as : Node → Outcome α) : Outcome (Option α) :=
  if n.isMap then
    match n.get key with
    | some sub =>
      match as sub with
      | .ok v => .ok (some v)
      | .exc => .ok none
      | .abort => .abort
      | .ub => .ub
    | none => .ok none
  else .ok none

/-- `hasKey` (yaml-serialization.h:50-57). -/
def hasKey (n : Node) (key : String) : Bool := n.isMap && (n.get key).isSome

/-- A matrix of doubles, as its rows (yaml-serialization-eigen.h:15-40). -/
structure Mat where
  rows : Nat
  cols : Nat
  data : List (List ℚ)
  deriving DecidableEq, Repr

/-- A column vector (yaml-serialization-eigen.h:15-40). -/
def Mat.col (v : List ℚ) : Mat := ⟨v.length, 1, v.map fun x => [x]⟩

/-- The entries of a column vector (yaml-serialization-eigen.h:15-40). -/
def Mat.entries (m : Mat) : List ℚ := m.data.flatten

/-- The rows of a matrix as nodes (yaml-serialization-eigen.h:23-37): a sequence for each row if there is more than one
column, otherwise a scalar. -/
def rowNodes (C : Codec) (m : Mat) : List Node :=
  if 1 < m.cols then m.data.map fun r => .seq (r.map fun x => .scalar (C.numText x))
  else m.data.map fun r => .scalar (C.numText (r.headD 0))

/-- `encode` (yaml-serialization-eigen.h:15-40); the emitter that writes a row of numbers cannot fail. -/
def encode (C : Codec) (m : Mat) : Outcome Node :=
  let node := (Node.null.set "rows" (.scalar (C.intText m.rows))).set "cols" (.scalar (C.intText m.cols))
  if 0 < m.rows ∧ 0 < m.cols then .ok (node.set "data" (.seq (rowNodes C m))) else .abort

/-- One element of a linear list (yaml-serialization-eigen.h:64-69): of a sequence the first element is taken, a
sequence with one element fails the `CHECK`, and an empty one has no first element. -/
def linearElem (C : Codec) : Node → Outcome ℚ
  | .seq l =>
    if l.length ≠ 1 then
      match l with
      | e :: _ => asScalar C.numRead e
      | [] => .ub
    else .abort
  | n => asScalar C.numRead n

/-- Reading elements one after the other (yaml-serialization-eigen.h:56-98). -/
def readAll {α β : Type} (f : α → Outcome β) : List α → Outcome (List β)
  | [] => .ok []
  | e :: es => f e >>= fun v => readAll f es >>= fun vs => .ok (v :: vs)

/-- Cutting a list into rows (yaml-serialization-eigen.h:56-80). -/
def chunk {α : Type} (cols : Nat) : Nat → List α → List (List α)
  | 0, _ => []
  | r + 1, l => l.take cols :: chunk cols r (l.drop cols)

/-- One row of a list of rows (yaml-serialization-eigen.h:82-98). -/
def rowElem (C : Codec) (cols : Nat) : Node → Outcome (List ℚ)
  | .seq l => if l.length = cols then readAll (asScalar C.numRead) l else .abort
  | n => if cols = 1 then asScalar C.numRead n >>= fun v => .ok [v] else .abort

/-- `decodeEigenMatrixData` (yaml-serialization-eigen.h:43-105); returning false makes `as` throw.  The product of the
dimensions is computed without overflow here. -/
def decodeData (C : Codec) (rows cols : Nat) : Option Node → Outcome Mat
  | some (.seq l) =>
    if rows = 0 ∧ cols = 0 then .ok ⟨0, 0, []⟩
    else if l.length = rows * cols then
      readAll (linearElem C) l >>= fun vs => .ok ⟨rows, cols, chunk cols rows vs⟩
    else if l.length = rows then
      readAll (rowElem C cols) l >>= fun d => .ok ⟨rows, cols, d⟩
    else .exc
  | _ => .exc

/-- The type of a matrix: the number of rows and of columns, `none` for `Eigen::Dynamic`
(yaml-serialization-eigen.h:108-198). -/
structure Shape where
  rows : Option Nat
  cols : Option Nat

/-- `Eigen::VectorXd` (yaml-serialization-eigen.h:108-198). -/
def Shape.vector : Shape := ⟨none, some 1⟩

/-- `Eigen::Matrix4d` and `Eigen::Matrix<double, 6, 6>`. -/
def Shape.square (n : Nat) : Shape := ⟨some n, some n⟩

/-- Whether a dimension that was read is allowed: a fixed one has to agree (yaml-serialization-eigen.h:108-198). -/
def fits (d : Option Nat) (n : Int) : Bool :=
  match d with
  | some k => decide (n = k)
  | none => true

/-- The four overloads of `decode` (yaml-serialization-eigen.h:108-198).  They differ in which dimensions are fixed;
resizing to a negative size is undefined behaviour. -/
def decode (C : Codec) (sh : Shape) (n : Node) : Outcome Mat :=
  if n.isMap then
    asOf (asScalar C.intRead) (n.get "rows") >>= fun rows =>
      asOf (asScalar C.intRead) (n.get "cols") >>= fun cols =>
        if fits sh.rows rows && fits sh.cols cols then
          if 0 ≤ rows ∧ 0 ≤ cols then decodeData C rows.toNat cols.toNat (n.get "data") else .ub
        else .exc
  else .exc

end Verif.Yaml
