import Verif.Base.Outcome
import Verif.Base.Decimal
import Mathlib.Data.Nat.Digits.Defs

/-!
# 128-bit ids

Model of `aslam_cv_common/include/aslam/common/hash-id.h`, `aslam_cv_common/src/hash-id.cc`,
`aslam_cv_common/include/aslam/common/unique-id.h`,
`aslam_cv_common/include/aslam/common/internal/unique-id.h` and
`aslam_cv_common/src/internal/unique-id.cc`.

`std::string` is a list of characters.  Not modelled: `randomize` (a `std::mt19937_64`), protobuf
(de)serialisation beyond the two words, `std::hash<std::string>`.
-/

namespace Verif.HashId

open Verif (Outcome)

/-- `HashVal` (hash-id.h:187-190): the sixteen bytes of the union. -/
structure Id where
  c : List UInt8
  len : c.length = 16
  deriving DecidableEq

/-- Little-endian value of bytes, the `u64` view of the union on the supported platforms. -/
def littleEndian (l : List UInt8) : Nat := Nat.ofDigits 256 (l.map UInt8.toNat)

/-- `val_.u64[0]` -/
def Id.u0 (i : Id) : Nat := littleEndian (i.c.take 8)
/-- `val_.u64[1]` -/
def Id.u1 (i : Id) : Nat := littleEndian (i.c.drop 8)

/-- `setInvalid`, default constructor (hash-id.h:28-30, 163-165). -/
def Id.invalid : Id := ⟨List.replicate 16 0, rfl⟩

/-- `isValid` (hash-id.h:166-168). -/
def Id.isValid (i : Id) : Bool := decide (i.u0 ≠ 0) || decide (i.u1 ≠ 0)

/-- `operator==` (hash-id.h:153-155). -/
def Id.eq (a b : Id) : Bool := decide (a.u0 = b.u0) && decide (a.u1 = b.u1)

/-- `operator!=` (hash-id.h:156-158). -/
def Id.ne (a b : Id) : Bool := !(a.eq b)

/-- `operator<` (hash-id.h:141-146). -/
def Id.lt (a b : Id) : Bool := if a.u0 = b.u0 then decide (a.u1 < b.u1) else decide (a.u0 < b.u0)

/-- `operator>` (hash-id.h:147-152). -/
def Id.gt (a b : Id) : Bool := if a.u0 = b.u0 then decide (a.u1 > b.u1) else decide (a.u0 > b.u0)

/-- `HashPrimeAndBase::kPrime` (hash-id.h:17-18), 64 bit. -/
def kPrime : BitVec 64 := 1099511628211#64
/-- `HashPrimeAndBase::kOffsetBasis` (hash-id.h:19-20), 64 bit. -/
def kOffsetBasis : BitVec 64 := 14695981039346656037#64

/-- `hashToSizeT` (hash-id.h:100-107), 64-bit `size_t`. -/
def Id.hashToSizeT (i : Id) : BitVec 64 :=
  (((kOffsetBasis ^^^ BitVec.ofNat 64 i.u0) * kPrime) ^^^ BitVec.ofNat 64 i.u1) * kPrime

/-- `hashToSizeTFast` (hash-id.h:116-121). -/
def Id.hashToSizeTFast (i : Id) : BitVec 64 :=
  kOffsetBasis ^^^ BitVec.ofNat 64 i.u0 ^^^ BitVec.ofNat 64 i.u1

/-- `std::hash` of a pair of ids (unique-id.h:60-69). -/
def hashPair (a b : Id) : BitVec 64 := a.hashToSizeT ^^^ b.hashToSizeT

/-- `kHexConversion` (hash-id.cc:5). -/
def kHexConversion : List Char :=
  ['0', '1', '2', '3', '4', '5', '6', '7', '8', '9', 'a', 'b', 'c', 'd', 'e', 'f']

/-- `kHexConversion[i]`; only used for `i < 16`. -/
def hexChar (i : Nat) : Char := kHexConversion.getD i '0'

/-- Loop body of `hexString` (hash-id.h:64-67). -/
def byteHex (b : UInt8) : List Char := [hexChar (b.toNat / 16), hexChar (b.toNat % 16)]

/-- `hexString` (hash-id.h:61-69). -/
def Id.hexString (i : Id) : List Char := i.c.flatMap byteHex

/-- `shortHex` (hash-id.h:74-76). -/
def Id.shortHex (i : Id) : List Char := i.hexString.take 4

/-- Value of a hexadecimal digit as accepted by `strtoul` (used by `stoul`, hash-id.h:89). -/
def hexDigit? (ch : Char) : Option Nat :=
  if '0' ≤ ch ∧ ch ≤ '9' then some (ch.toNat - '0'.toNat)
  else if 'a' ≤ ch ∧ ch ≤ 'f' then some (ch.toNat - 'a'.toNat + 10)
  else if 'A' ≤ ch ∧ ch ≤ 'F' then some (ch.toNat - 'A'.toNat + 10)
  else none

/-- `std::isspace` in the "C" locale (used by `stoul`, hash-id.h:89). -/
def isSpace (ch : Char) : Bool :=
  ch = ' ' || ch = '\t' || ch = '\n' || ch = Char.ofNat 11 || ch = Char.ofNat 12 || ch = '\r'

/-- The longest prefix of hexadecimal digits (used by `stoul`, hash-id.h:89). -/
def hexPrefix : List Char → List Nat
  | [] => []
  | ch :: s =>
    match hexDigit? ch with
    | some d => d :: hexPrefix s
    | none => []

/-- The subject of `strtoul` after white space and sign: an optional `0x` (only if a digit follows) and
digits; `none` if there is no digit. -/
def magnitude (s : List Char) : Option Nat :=
  let digits :=
    match s with
    | '0' :: x :: d :: rest =>
      if (x = 'x' ∨ x = 'X') ∧ (hexDigit? d).isSome then hexPrefix (d :: rest) else hexPrefix s
    | _ => hexPrefix s
  if digits = [] then none else some (digits.foldl (fun a d => 16 * a + d) 0)

/-- `std::stoul(s, 0, 16)` (C++ standard and C17 7.22.1.4): white space, optional sign, magnitude, the rest
of the string is ignored; `none` stands for the exception `std::invalid_argument`.  The exception
`std::out_of_range` needs more than sixteen digits; the code only parses two characters. -/
def stoul16 (s : List Char) : Option Nat :=
  match s.dropWhile isSpace with
  | '+' :: r => magnitude r
  | '-' :: r => (magnitude r).map fun m => (2 ^ 64 - m) % 2 ^ 64
  | r => magnitude r

/-- `val_.c[i] = v` (hash-id.h:88). -/
def Id.setByte (i : Id) (k : Nat) (v : UInt8) : Id := ⟨i.c.set k v, by simp [i.len]⟩

/-- The loop of `fromHexString` (hash-id.h:87-90): bytes from `k` on; the id is changed byte by byte, also
if a later byte throws. -/
def fromHexLoop (i : Id) (s : List Char) : Nat → Nat → Id × Outcome Bool
  | _, 0 => (i, .ok true)
  | k, n + 1 =>
    match stoul16 ((s.drop (2 * k)).take 2) with
    | none => (i, .exc)
    | some v => fromHexLoop (i.setByte k (UInt8.ofNat v)) s (k + 1) n

/-- `fromHexString` (hash-id.h:82-92): the id afterwards and the result. -/
def Id.fromHexString (i : Id) (s : List Char) : Id × Outcome Bool :=
  if s.length ≠ 32 then (i, .ok false) else fromHexLoop i s 0 16

/-- `generateIdFromInt` (unique-id.h:105-111) for an id object `i`; `idx` is an `unsigned int`. -/
def generateIdFromInt (idx : Nat) (i : Id) : Id × Outcome Bool :=
  let digits := Decimal.natString idx
  i.fromHexString (List.replicate (32 - digits.length) '0' ++ digits)

/-- The bytes of a 64-bit word, little-endian. -/
def wordBytes (n : Nat) : List UInt8 := (List.range 8).map fun k => UInt8.ofNat (n / 256 ^ k)

/-- `fromUint64` (hash-id.h:38-41). -/
def fromUint64 (a b : Nat) : Id := ⟨wordBytes a ++ wordBytes b, by simp [wordBytes]⟩

/-- `toUint64` (hash-id.h:43-46). -/
def Id.toUint64 (i : Id) : Nat × Nat := (i.u0, i.u1)

/-- One call of `generateUnique128BitHash` (internal/unique-id.cc:8-16).  `seed` and `time` are whatever the
seed object and the clock yield at that call, `h` is `std::hash<uint64_t>`, `counter` the static atomic
counter. -/
def generateHash (h : Nat → Nat) (seed time : Nat) (counter : Nat) : Nat × Id :=
  let counter' := (counter + 1) % 2 ^ 64
  (counter', fromUint64 (Nat.xor seed (h time)) (h counter'))

/-- The ids made by the calls of a process, in the order of their increments of the counter (the increments
are atomic); `env` gives seed and clock of each call (unique-id.cc:8-16). -/
def generateAll (h : Nat → Nat) : List (Nat × Nat) → Nat → List Id
  | [], _ => []
  | (seed, time) :: env, counter =>
    let r := generateHash h seed time counter
    r.2 :: generateAll h env r.1

end Verif.HashId
