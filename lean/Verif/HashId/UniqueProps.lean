import Verif.HashId.Unique
import Verif.HashId.Props

/-!
# Typed ids: properties (C126)

The printed form of an id is its first four and its last four hexadecimal digits with two dots between; a message
holds the two words of an id.  The theorems speak about the sixteen bytes of an id.
-/

namespace Verif.HashId

open Verif (Outcome)

/-! ## Messages -/

theorem word_lt (l : List UInt8) (h : l.length = 8) : littleEndian l < 2 ^ 64 := by
  have : littleEndian l < 256 ^ (l.map UInt8.toNat).length := by
    refine Nat.ofDigits_lt_base_pow_length (by omega) ?_
    intro d hd
    obtain ⟨x, _, rfl⟩ := List.mem_map.mp hd
    exact x.toNat_lt
  simpa [h] using this

theorem u_lt (i : Id) : i.u0 < 2 ^ 64 ∧ i.u1 < 2 ^ 64 :=
  ⟨word_lt _ (by simp [i.len]), word_lt _ (by simp [i.len])⟩

/-- The words a message should hold: the little-endian values of the first and of the last eight bytes. -/
def Holds (p : Proto) (i : Id) : Prop :=
  ∃ a b, p = [a, b] ∧ a.toNat = littleEndian (i.c.take 8) ∧ b.toNat = littleEndian (i.c.drop 8)

/-- **C126 (writing).** Whatever the message held before, afterwards it holds the two words of the id. -/
theorem serialize_holds (i : Id) (p : Proto) : ∃ q, i.serialize (some p) = .ok q ∧ Holds q i := by
  refine ⟨_, rfl, _, _, rfl, ?_, ?_⟩
  · exact (BitVec.toNat_ofNat _ _).trans (Nat.mod_eq_of_lt (u_lt i).1)
  · exact (BitVec.toNat_ofNat _ _).trans (Nat.mod_eq_of_lt (u_lt i).2)

/-- A message determines the id it holds. -/
theorem holds_unique {p : Proto} {i j : Id} (hi : Holds p i) (hj : Holds p j) : i = j := by
  obtain ⟨a, b, rfl, h0, h1⟩ := hi
  obtain ⟨a', b', e, g0, g1⟩ := hj
  injection e with e1 e2
  injection e2 with e2
  subst e1 e2
  exact words_inj (h0.symm.trans g0) (h1.symm.trans g1)

/-- **C126 (reading).** An id can be read exactly from messages with two words; it is then the one the message
holds, whatever the object was before.  For every other message the process is terminated. -/
theorem deserialize_spec (i : Id) (p : Proto) :
    (∀ j, i.deserialize p = .ok j ↔ Holds p j) ∧ (p.length ≠ 2 → i.deserialize p = .abort) ∧
      (p.length = 2 → ∃ j, Holds p j) := by
  have two : ∀ a b : BitVec 64, Holds [a, b] (fromUint64 a.toNat b.toNat) := by
    intro a b
    refine ⟨a, b, rfl, ?_, ?_⟩
    · exact ((fromUint64_words a.toNat b.toNat).1.trans (Nat.mod_eq_of_lt a.isLt)).symm
    · exact ((fromUint64_words a.toNat b.toNat).2.trans (Nat.mod_eq_of_lt b.isLt)).symm
  refine ⟨?_, ?_, ?_⟩
  · intro j
    constructor
    · intro h
      unfold Id.deserialize at h
      split at h
      · rename_i hl
        match p, hl with
        | [a, b], _ =>
          injection h with h
          subst h
          exact two a b
      · cases h
    · intro h
      obtain ⟨a, b, rfl, _, _⟩ := id h
      show Outcome.ok (fromUint64 a.toNat b.toNat) = _
      exact congrArg Outcome.ok (holds_unique (two a b) h)
  · intro h
    unfold Id.deserialize
    rw [if_neg h]
  · intro h
    match p, h with
    | [a, b], _ => exact ⟨_, two a b⟩

/-- **C126 (round trip).** Writing an id into a message and reading it back yields the id. -/
theorem proto_round_trip (i j : Id) (p : Proto) : (i.serialize (some p) >>= j.deserialize) = .ok i := by
  obtain ⟨q, hq, hh⟩ := serialize_holds i p
  rw [hq]
  exact ((deserialize_spec j q).1 i).2 hh

/-- **C126 (round trip of messages).** Reading a message of two words and writing the id yields the message. -/
theorem message_round_trip {p : Proto} {i j : Id} (h : i.deserialize p = .ok j) (q : Proto) :
    j.serialize (some q) = .ok p := by
  obtain ⟨a, b, rfl, h0, h1⟩ := ((deserialize_spec i p).1 j).1 h
  obtain ⟨r, hr, a', b', rfl, g0, g1⟩ := serialize_holds j q
  rw [hr, BitVec.eq_of_toNat_eq (g0.trans h0.symm), BitVec.eq_of_toNat_eq (g1.trans h1.symm)]

/-- **C126 (comparison with a message).** `correspondsTo` is true exactly for a message that holds the id; it
terminates the process for messages that do not have two words. -/
theorem correspondsTo_spec (i : Id) (p : Proto) :
    (i.correspondsTo p = .ok true ↔ Holds p i) ∧ (i.correspondsTo p = .abort ↔ p.length ≠ 2) := by
  unfold Id.correspondsTo ofProto
  have hs := deserialize_spec Id.invalid p
  by_cases hl : p.length = 2
  · obtain ⟨j, hj⟩ := hs.2.2 hl
    rw [(hs.1 j).2 hj, Outcome.bind_ok]
    constructor
    · constructor
      · intro h
        injection h with h
        rw [((eq_iff i j).1).1 h]
        exact hj
      · intro h
        rw [((eq_iff i j).1).2 (holds_unique h hj)]
    · simp [hl]
  · rw [hs.2.1 hl]
    constructor
    · constructor
      · intro h
        cases h
      · rintro ⟨a, b, rfl, _⟩
        exact absurd rfl hl
    · exact ⟨fun _ => hl, fun _ => rfl⟩

/-- Non-vacuity: the message of an id made from an integer, and a message that is too long. -/
example : ∃ p, (fromUint64 7 9).serialize (some [1, 2, 3]) = .ok p ∧ p = [7, 9] ∧
    (fromUint64 7 9).correspondsTo p = .ok true ∧ (fromUint64 7 9).correspondsTo [9, 7] = .ok false ∧
    (fromUint64 7 9).correspondsTo [7, 9, 0] = .abort := ⟨[7, 9], by decide, rfl, by decide, by decide, by decide⟩

/-! ## Conversions -/

/-- **C126 (conversions).** Converting between types of ids keeps the sixteen bytes; a null target terminates the
process. -/
theorem conversions (i j : Id) (t : Id) :
    (j.fromHashId i).c = i.c ∧ (∃ k, i.toHashId (some t) = .ok k ∧ k.c = i.c) ∧ i.toIdType.c = i.c ∧
      (∃ k, j.fromBase i = .ok k ∧ k.c = i.c) ∧ i.toHashId none = .abort ∧ i.serialize none = .abort ∧
      generateId i none = .abort :=
  ⟨rfl, ⟨i, rfl, rfl⟩, rfl, ⟨i, rfl, rfl⟩, rfl, rfl, rfl⟩

/-- **C126 (hashing in sets of ids).** Whatever hash of strings is used, equal ids have equal hashes, and different
ids collide only if the hash of strings does. -/
theorem stdHash_spec (h : List Char → BitVec 64) (i j : Id) :
    (i.eq j = true → stdHash h i = stdHash h j) ∧
      (stdHash h i = stdHash h j → i.eq j = false → ∃ s t, s ≠ t ∧ h s = h t) := by
  constructor
  · intro e
    rw [((eq_iff i j).1).1 e]
  · intro e hn
    refine ⟨i.hexString, j.hexString, ?_, e⟩
    intro hx
    have := ((eq_iff i j).1).2 (hexString_injective hx)
    rw [hn] at this
    cases this

/-! ## Printing -/

theorem hexString_split (i : Id) :
    i.hexString = (i.c.take 2).flatMap byteHex ++ (((i.c.drop 2).take 12).flatMap byteHex ++
      (i.c.drop 14).flatMap byteHex) := by
  unfold Id.hexString
  rw [← List.flatMap_append, ← List.flatMap_append]
  congr 1
  have : i.c.drop 14 = (i.c.drop 2).drop 12 := by rw [List.drop_drop]
  rw [this, List.take_append_drop, List.take_append_drop]

theorem length_head (i : Id) : ((i.c.take 2).flatMap byteHex).length = 4 := by
  rw [length_flatMap_byteHex, List.length_take, i.len]; rfl

theorem length_tail (i : Id) : ((i.c.drop 14).flatMap byteHex).length = 4 := by
  rw [length_flatMap_byteHex, List.length_drop, i.len]

/-- **C126 (printed form).** An id prints as the hexadecimal digits of its first two bytes, two dots, and those of
its last two bytes. -/
theorem printString_spec (i : Id) :
    i.printString = (i.c.take 2).flatMap byteHex ++ ['.', '.'] ++ (i.c.drop 14).flatMap byteHex := by
  have h1 := length_head i
  have h3 := length_tail i
  have h2 : (((i.c.drop 2).take 12).flatMap byteHex).length = 24 := by
    rw [length_flatMap_byteHex]; simp [i.len]
  have hs := hexString_split i
  revert h1 h2 h3 hs
  generalize (i.c.take 2).flatMap byteHex = A
  generalize ((i.c.drop 2).take 12).flatMap byteHex = B
  generalize (i.c.drop 14).flatMap byteHex = C
  intro h1 h2 h3 hs
  unfold Id.printString substr
  simp only [kDefaultIDPrintLength]
  rw [hs]
  have e : (A ++ (B ++ C)).length - (10 - 2) / 2 = (A ++ B).length := by
    simp only [List.length_append, h1, h2, h3]
  have t : ((A ++ (B ++ C)).drop 0).take ((10 - 2) / 2) = A := List.take_left' h1
  rw [t, e, ← List.append_assoc A B C, List.drop_left, List.take_of_length_le (by omega)]

theorem printString_length (i : Id) : i.printString.length = 10 := by
  rw [printString_spec, List.length_append, List.length_append, length_head, length_tail]; rfl

theorem flatMap_byteHex_inj : ∀ {l m : List UInt8}, l.length = m.length → l.flatMap byteHex = m.flatMap byteHex →
    l = m
  | [], [], _, _ => rfl
  | a :: l, b :: m, hl, h => by
    have hx : byteHex a = byteHex b ∧ l.flatMap byteHex = m.flatMap byteHex := by
      rw [List.flatMap_cons, List.flatMap_cons] at h
      exact List.append_inj h (by simp [byteHex])
    have e := stoul_byteHex a
    rw [hx.1, stoul_byteHex b] at e
    injection e with e
    rw [UInt8.toNat_inj.1 e, flatMap_byteHex_inj (by simpa using hl) hx.2]

/-- **C126 (what the printed form tells).** Two ids print alike exactly if their first two and their last two bytes
agree. -/
theorem printString_eq_iff (i j : Id) :
    i.printString = j.printString ↔ i.c.take 2 = j.c.take 2 ∧ i.c.drop 14 = j.c.drop 14 := by
  rw [printString_spec, printString_spec]
  constructor
  · intro h
    have h1 := List.append_inj h (by rw [List.length_append, List.length_append, length_head, length_head])
    have h2 := List.append_inj h1.1 (by rw [length_head, length_head])
    exact ⟨flatMap_byteHex_inj (by simp [i.len, j.len]) h2.1, flatMap_byteHex_inj (by simp [i.len, j.len]) h1.2⟩
  · rintro ⟨h1, h2⟩
    rw [h1, h2]

/-- Ids that print differently are different. -/
theorem print_differs {i j : Id} (h : i.printString ≠ j.printString) : i.eq j = false := by
  rw [Bool.eq_false_iff]
  intro e
  exact h (by rw [((eq_iff i j).1).1 e])

/-- **C126 refuted (print tells ids apart).** Two different ids made from integers print alike: the printed form
leaves out twelve of sixteen bytes. -/
theorem print_refuted (i j : Id) :
    (generateIdFromInt 10001 i).1.eq (generateIdFromInt 20001 j).1 = false ∧
      (generateIdFromInt 10001 i).1.printString = (generateIdFromInt 20001 j).1.printString := by
  have a := fromInt_string (idx := 10001) (by omega) i
  have b := fromInt_string (idx := 20001) (by omega) j
  obtain ⟨x, hx, hxs⟩ := a
  obtain ⟨y, hy, hys⟩ := b
  constructor
  · rw [Bool.eq_false_iff]
    intro e
    have := fromInt_injective (by omega) (by omega) i j (((eq_iff _ _).1).1 e)
    omega
  · rw [hx, hy]
    have d1 : Decimal.digits 10001 = [1, 0, 0, 0, 1] := by
      simp [Decimal.digits]
    have d2 : Decimal.digits 20001 = [2, 0, 0, 0, 1] := by
      simp [Decimal.digits]
    unfold Id.printString
    rw [hxs, hys, d1, d2]
    decide

/-- **C126 (the printed form is not an id).** The printed form is refused by `fromHexString`, which leaves the id as
it is. -/
theorem print_not_parsed (i j : Id) : j.fromHexString i.printString = (j, .ok false) := by
  apply wrong_length_refused
  rw [printString_length]
  decide

theorem foldl_print (l : List Id) (s : List Char) :
    l.foldl (fun s e => s ++ e.printString ++ [' ']) s = s ++ l.flatMap (fun e => e.printString ++ [' ']) := by
  induction l generalizing s with
  | nil => simp
  | cons a l ih =>
    rw [List.foldl_cons, ih, List.flatMap_cons]
    simp

/-- **C126 (printing containers).** The printed container is the printed ids in order, each followed by a blank,
between brackets; its length tells how many there are. -/
theorem container_spec (l : List Id) :
    printIdContainer l = "[ ".toList ++ l.flatMap (fun e => e.printString ++ [' ']) ++ "]".toList ∧
      (printIdContainer l).length = 3 + 11 * l.length := by
  have h1 : printIdContainer l = "[ ".toList ++ l.flatMap (fun e => e.printString ++ [' ']) ++ "]".toList := by
    unfold printIdContainer
    rw [foldl_print, List.nil_append]
    rfl
  refine ⟨h1, ?_⟩
  have h2 : (l.flatMap (fun e => e.printString ++ [' '])).length = 11 * l.length := by
    induction l with
    | nil => rfl
    | cons a l ih =>
      rw [List.flatMap_cons, List.length_append, ih (by
        unfold printIdContainer; rw [foldl_print, List.nil_append]; rfl), List.length_append, printString_length]
      simp
      omega
  rw [h1, List.length_append, List.length_append, h2]
  simp
  omega

/-- Two containers print alike exactly if they have as many ids and these print alike one by one. -/
theorem container_eq_iff : ∀ (l m : List Id),
    printIdContainer l = printIdContainer m ↔ l.map Id.printString = m.map Id.printString := by
  intro l m
  rw [(container_spec l).1, (container_spec m).1, List.append_left_inj, List.append_right_inj]
  have hlen := printString_length
  induction l generalizing m with
  | nil =>
    cases m with
    | nil => simp
    | cons b m => simp
  | cons a l ih =>
    cases m with
    | nil => simp
    | cons b m =>
      rw [List.flatMap_cons, List.flatMap_cons, List.map_cons, List.map_cons, List.cons_eq_cons]
      refine Iff.trans ?_ (and_congr_right fun _ => ih m)
      constructor
      · intro h
        have h1 := List.append_inj h (by simp [hlen])
        exact ⟨(List.append_inj h1.1 (by simp [hlen])).1, h1.2⟩
      · rintro ⟨h1, h2⟩
        rw [h1, h2]

/-- Non-vacuity: an id and a container, printed. -/
example : (fromUint64 0x3412 0xcdab000000000000).printString = "1234..abcd".toList ∧
    printIdContainer [fromUint64 0x3412 0xcdab000000000000, Id.invalid] = "[ 1234..abcd 0000..0000 ]".toList := by
  decide

/-! ## Pairs, seeds and random ids -/

/-- **C126 refuted (pairs hash well).** All pairs of an id with itself hash alike. -/
theorem hashPair_refuted (i j : Id) : hashPair i i = hashPair j j := by
  unfold hashPair
  rw [BitVec.xor_self, BitVec.xor_self]

theorem seedAfter_foldl (l : List (BitVec 64)) (s : BitVec 64) : l.foldl saltSeed s = s ^^^ l.foldl saltSeed 0 := by
  induction l generalizing s with
  | nil => simp
  | cons a l ih =>
    rw [List.foldl_cons, List.foldl_cons, ih, ih (saltSeed 0 a)]
    unfold saltSeed
    rw [show (0 : BitVec 64) ^^^ a = a from BitVec.zero_xor, BitVec.xor_assoc]

/-- **C126 (salting).** The seed does not depend on the order of the salts. -/
theorem seed_order {l m : List (BitVec 64)} (h : l.Perm m) : seedAfter l = seedAfter m := by
  unfold seedAfter
  refine h.foldl_eq' ?_ 31
  intro x _ y _ z
  unfold saltSeed
  rw [BitVec.xor_assoc, BitVec.xor_assoc, BitVec.xor_comm x y]

/-- **C126 (one salt).** Processes that differ in one salt have different seeds. -/
theorem seed_differs (l : List (BitVec 64)) (a b : BitVec 64) : seedAfter (a :: l) = seedAfter (b :: l) ↔ a = b := by
  constructor
  · intro h
    unfold seedAfter at h
    rw [List.foldl_cons, List.foldl_cons, seedAfter_foldl l, seedAfter_foldl l (saltSeed 31 b)] at h
    have h2 := congrArg (fun x => x ^^^ l.foldl saltSeed 0) h
    simp only [BitVec.xor_assoc, BitVec.xor_self, BitVec.xor_zero] at h2
    unfold saltSeed at h2
    have h3 := congrArg (fun x => 31 ^^^ x) h2
    simpa only [← BitVec.xor_assoc, BitVec.xor_self, BitVec.zero_xor] using h3
  · rintro rfl
    rfl

/-- **C126 refuted (salting always changes the seed).** Salting twice with the same value undoes it. -/
theorem seed_refuted (a : BitVec 64) : seedAfter [a, a] = seedAfter [] := by
  unfold seedAfter
  rw [List.foldl_cons, List.foldl_cons, List.foldl_nil]
  unfold saltSeed
  rw [BitVec.xor_assoc, BitVec.xor_self, BitVec.xor_zero]
  rfl

theorem randoms_get (rng : Nat → BitVec 64) : ∀ (n k j : Nat), j < n →
    (randoms rng n k)[j]? = some (fromUint64 (rng (k + 2 * j)).toNat (rng (k + 2 * j + 1)).toNat)
  | n + 1, k, 0, _ => by simp [randoms, randomize]
  | n + 1, k, j + 1, h => by
    rw [randoms]
    simp only [randomize, List.getElem?_cons_succ]
    rw [randoms_get rng n (k + 2) j (by omega)]
    rw [show k + 2 + 2 * j = k + 2 * (j + 1) by omega]

theorem randoms_length (rng : Nat → BitVec 64) : ∀ (n k : Nat), (randoms rng n k).length = n
  | 0, _ => rfl
  | n + 1, k => by rw [randoms, List.length_cons, randoms_length]

/-- **C126 (random ids).** The ids drawn are the consecutive pairs of numbers of the generator: no number is used
twice or left out.  Hence two draws give the same id only if the generator repeats a pair. -/
theorem random_spec (rng : Nat → BitVec 64) (n : Nat) :
    (randoms rng n 0).length = n ∧
      (randoms rng n 0).flatMap (fun i => [i.u0, i.u1]) = (List.range (2 * n)).map (fun k => (rng k).toNat) := by
  refine ⟨randoms_length _ _ _, ?_⟩
  have key : ∀ (n k : Nat), (randoms rng n k).flatMap (fun i => [i.u0, i.u1]) =
      (List.range' k (2 * n)).map (fun k => (rng k).toNat) := by
    intro n
    induction n with
    | zero => intro k; rfl
    | succ n ih =>
      intro k
      rw [show 2 * (n + 1) = 2 * n + 1 + 1 by omega, List.range'_succ, List.range'_succ, randoms,
        List.flatMap_cons]
      simp only [randomize]
      rw [ih, (fromUint64_words _ _).1, (fromUint64_words _ _).2, Nat.mod_eq_of_lt (rng k).isLt,
        Nat.mod_eq_of_lt (rng (k + 1)).isLt]
      rfl
  rw [key, List.range_eq_range']

/-- Non-vacuity: three draws. -/
example : (randoms (fun k => BitVec.ofNat 64 (k + 1)) 3 0).map Id.toUint64 = [(1, 2), (3, 4), (5, 6)] := by decide

end Verif.HashId
