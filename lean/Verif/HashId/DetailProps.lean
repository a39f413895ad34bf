import Verif.HashId.Props

/-!
# C25: the hash of an id is the published one

`hashToSizeT` (hash-id.h:100-107) as FNV-1a on the two words of the id, with the parameters of its publication; and the
white space of `stoul` (hash-id.h:89) by character code.
-/

namespace Verif.HashId

open Verif (Outcome)

/-- One step of FNV-1a with 64 bits: exclusive or, then the product with the FNV prime `2^40 + 2^8 + 0xb3`. -/
def fnvStep (h w : Nat) : Nat := (h ^^^ w) * (2 ^ 40 + 2 ^ 8 + 0xb3) % 2 ^ 64

/-- FNV-1a with 64 bits from its offset basis. -/
def fnv1a (ws : List Nat) : Nat := ws.foldl fnvStep 0xcbf29ce484222325

theorem u0_lt (i : Id) : i.u0 < 2 ^ 64 := by
  have : i.u0 < 256 ^ ((i.c.take 8).map UInt8.toNat).length := by
    refine Nat.ofDigits_lt_base_pow_length (by omega) ?_
    intro d hd
    obtain ⟨x, _, rfl⟩ := List.mem_map.mp hd
    exact x.toNat_lt
  simpa [i.len] using this

theorem u1_lt (i : Id) : i.u1 < 2 ^ 64 := by
  have : i.u1 < 256 ^ ((i.c.drop 8).map UInt8.toNat).length := by
    refine Nat.ofDigits_lt_base_pow_length (by omega) ?_
    intro d hd
    obtain ⟨x, _, rfl⟩ := List.mem_map.mp hd
    exact x.toNat_lt
  simpa [i.len] using this

/-- **C25 (hash).** The hash of an id is FNV-1a of its two words, the fast hash is their exclusive or with the offset
basis. -/
theorem hash_is_fnv1a (i : Id) :
    i.hashToSizeT.toNat = fnv1a [i.u0, i.u1] ∧ i.hashToSizeTFast.toNat = 0xcbf29ce484222325 ^^^ i.u0 ^^^ i.u1 := by
  have e0 : (BitVec.ofNat 64 i.u0).toNat = i.u0 := by
    rw [BitVec.toNat_ofNat, Nat.mod_eq_of_lt (u0_lt i)]
  have e1 : (BitVec.ofNat 64 i.u1).toNat = i.u1 := by
    rw [BitVec.toNat_ofNat, Nat.mod_eq_of_lt (u1_lt i)]
  have ek : kOffsetBasis.toNat = 0xcbf29ce484222325 := by decide
  have ep : kPrime.toNat = 2 ^ 40 + 2 ^ 8 + 0xb3 := by decide
  constructor
  · unfold Id.hashToSizeT fnv1a
    rw [BitVec.toNat_mul, BitVec.toNat_xor, BitVec.toNat_mul, BitVec.toNat_xor, e0, e1, ek, ep, List.foldl_cons,
      List.foldl_cons, List.foldl_nil, fnvStep, fnvStep]
  · unfold Id.hashToSizeTFast
    rw [BitVec.toNat_xor, BitVec.toNat_xor, e0, e1, ek]

/-- The hash of the invalid id. -/
example : Id.invalid.hashToSizeT.toNat = fnv1a [0, 0] ∧ Id.invalid.hashToSizeTFast.toNat = 14695981039346656037 := by
  decide +kernel

/-- **C25 (hexadecimal form).** The characters that are skipped before a digit are the space and the codes 9 to 13. -/
theorem isSpace_iff (ch : Char) : isSpace ch = true ↔ ch.toNat = 32 ∨ (9 ≤ ch.toNat ∧ ch.toNat ≤ 13) := by
  have inj : ∀ d : Char, ch = d ↔ ch.toNat = d.toNat := fun d =>
    ⟨fun h => by rw [h], fun h => Char.ext (UInt32.toNat_inj.mp h)⟩
  have h1 : (' ' : Char).toNat = 32 := rfl
  have h2 : ('\t' : Char).toNat = 9 := rfl
  have h3 : ('\n' : Char).toNat = 10 := rfl
  have h4 : (Char.ofNat 11).toNat = 11 := rfl
  have h5 : (Char.ofNat 12).toNat = 12 := rfl
  have h6 : ('\r' : Char).toNat = 13 := rfl
  unfold isSpace
  simp only [Bool.or_eq_true, decide_eq_true_eq, inj, h1, h2, h3, h4, h5, h6]
  omega

/-- Form feed is skipped, a letter is not. -/
example : isSpace (Char.ofNat 12) = true ∧ isSpace 'x' = false := by decide

end Verif.HashId
