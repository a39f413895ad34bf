import Verif.HashId.Model

/-!
# Typed ids

Model of `Id`, `UniqueId` and the functions around them in
`aslam_cv_common/include/aslam/common/unique-id.h`, of `UniqueIdHashSeed` in
`aslam_cv_common/include/aslam/common/internal/unique-id.h` and of `randomize` in
`aslam_cv_common/include/aslam/common/hash-id.h`.

* The message `aslam.proto.Id` is its only field: a list of 64-bit words.
* A pointer that may be null is an `Option`.
* `std::hash<std::string>` and the random generator are parameters.
-/

namespace Verif.HashId

open Verif (Outcome)

/-- `aslam::proto::Id`: `repeated uint64 uint` (unique-id.h:119-133). -/
abbrev Proto := List (BitVec 64)

/-- `Id::deserialize` (unique-id.h:120-123): `CHECK_EQ(uint_size(), 2)`, then the two words are copied. -/
def Id.deserialize (_ : Id) (p : Proto) : Outcome Id :=
  if p.length = 2 then .ok (fromUint64 (p.getD 0 0).toNat (p.getD 1 0).toNat) else .abort

/-- The constructor from a message (unique-id.h:117-119, 173-174). -/
def ofProto (p : Proto) : Outcome Id := Id.invalid.deserialize p

/-- `Id::serialize` (unique-id.h:124-133): the field is cleared, two words are added and then overwritten. -/
def Id.serialize (i : Id) : Option Proto → Outcome Proto
  | none => .abort
  | some _ =>
    let field : Proto := [0, 0]
    let w := i.toUint64
    .ok ((field.set 0 (BitVec.ofNat 64 w.1)).set 1 (BitVec.ofNat 64 w.2))

/-- `fromHashId` (unique-id.h:135-137, 193-195): the id afterwards. -/
def Id.fromHashId (_ : Id) (h : Id) : Id := h

/-- `toHashId` (unique-id.h:138-141, 197-200): what the target holds afterwards. -/
def Id.toHashId (i : Id) : Option Id → Outcome Id
  | none => .abort
  | some _ => .ok i

/-- `toIdType` (unique-id.h:150-155). -/
def Id.toIdType (i : Id) : Id := Id.invalid.fromHashId i

/-- `fromBASE` of an immutable id (unique-id.h:38-42). -/
def Id.fromBase (i b : Id) : Outcome Id :=
  b.toHashId (some Id.invalid) >>= fun h => .ok (i.fromHashId h)

/-- `correspondsTo` (unique-id.h:160-163). -/
def Id.correspondsTo (i : Id) (p : Proto) : Outcome Bool := ofProto p >>= fun j => .ok (i.eq j)

/-- `kDefaultIDPrintLength` (unique-id.h:14). -/
def kDefaultIDPrintLength : Nat := 10

/-- `std::string::substr` (unique-id.h:146-147); the position is never past the end here. -/
def substr (s : List Char) (pos count : Nat) : List Char := (s.drop pos).take count

/-- `printString` (unique-id.h:143-148), also what `operator<<` writes (unique-id.h:188-190, 240-249). -/
def Id.printString (i : Id) : List Char :=
  let kPartLength := (kDefaultIDPrintLength - 2) / 2
  let hex := i.hexString
  substr hex 0 kPartLength ++ ['.', '.'] ++ substr hex (hex.length - kPartLength) kPartLength

/-- `printIdContainer` (unique-id.h:78-87) for a container of ids. -/
def printIdContainer (l : List Id) : List Char :=
  ['[', ' '] ++ l.foldl (fun s e => s ++ e.printString ++ [' ']) [] ++ [']']

/-- `std::hash<aslam::Id>` (unique-id.h:251-256); `h` is `std::hash<std::string>`. -/
def stdHash (h : List Char → BitVec 64) (i : Id) : BitVec 64 := h i.hexString

/-- `generateId` (unique-id.h:90-96), given the id the generator yields. -/
def generateId (generated : Id) : Option Id → Outcome Id
  | none => .abort
  | some _ => .ok generated

/-- `createRandomId` (unique-id.h:98-103). -/
def createRandomId (generated : Id) : Outcome Id := generateId generated (some Id.invalid)

/-- `UniqueIdHashSeed::saltSeed` (internal/unique-id.h:24-26): the seed afterwards. -/
def saltSeed (seed salt : BitVec 64) : BitVec 64 := seed ^^^ salt

/-- `UniqueIdHashSeed::seed()` after the calls of `saltSeed` so far (internal/unique-id.h:18-30). -/
def seedAfter (salts : List (BitVec 64)) : BitVec 64 := salts.foldl saltSeed 31

/-- `randomize` (hash-id.h:127-135): two numbers are drawn under the lock, so calls of several threads come one
after the other; `rng` are the numbers of the generator, `k` how many were drawn. -/
def randomize (rng : Nat → BitVec 64) (k : Nat) : Nat × Id := (k + 2, fromUint64 (rng k).toNat (rng (k + 1)).toNat)

/-- `HashId::random` (hash-id.h:52-56) called again and again. -/
def randoms (rng : Nat → BitVec 64) : Nat → Nat → List Id
  | 0, _ => []
  | n + 1, k =>
    let r := randomize rng k
    r.2 :: randoms rng n r.1

end Verif.HashId
