import Verif.Serialization.Props

/-!
# Sizes of images, announced sizes that wrap around, and numbers read from strings (C11, C12, C14)
-/

namespace Verif.Serialization

open Verif (Outcome)

/-- The number of bits in the name of an element type. -/
def nameBits : Scalar → Nat
  | .u8 => 8 | .s8 => 8 | .u16 => 16 | .s16 => 16 | .s32 => 32 | .f32 => 32 | .f64 => 64

/-- A serialised image is as long as its pixels and sixteen bytes. -/
theorem image_length {m : CvMat} {s : Scalar} (h : m.Valid s) {bytes : Bytes} (hb : cvSerializeToString m = .ok bytes) :
    8 * bytes.length = 8 * 16 + nameBits s * (m.rows * m.cols * m.channels) := by
  have hsm := h.small
  have hch := h.channels_le
  have hp := sizeProd_eq (a := s.size) (b := m.rows) (c := m.cols) (d := m.channels)
    (by have := h.data_len; omega)
  have ht : (sizeProd s.size m.rows m.cols m.channels + headerSize) % sizeMod = m.data.length + 16 := by
    rw [hp, ← h.data_len]
    unfold headerSize sizeMod
    omega
  unfold cvSerializeToString at hb
  rw [if_pos h.pixels, h.depth_eq, scalarOfDepth_depth] at hb
  simp only at hb
  unfold serializeRawToString at hb
  simp only [ht] at hb
  rw [show decide (0 < m.data.length + 16) = true from decide_eq_true (Nat.succ_pos _)] at hb
  simp only [Outcome.check_true, Outcome.bind_ok] at hb
  rw [serialize_into s m.data (List.replicate (m.data.length + 16) 0) h.rows_lt h.cols_lt (by omega)
      h.data_len hsm List.length_replicate] at hb
  simp only [Outcome.ok.injEq] at hb
  rw [← hb, List.length_append, wireHeader_length, h.data_len]
  have e : 8 * s.size = nameBits s := by cases s <;> rfl
  rw [← e, Nat.mul_add, Nat.mul_assoc s.size, Nat.mul_assoc s.size, ← Nat.mul_assoc 8]

/-- A 1×2 colour image takes 22 bytes. -/
example : ∃ b, cvSerializeToString ⟨1, 2, 0, 3, [1, 2, 3, 4, 5, 6]⟩ = .ok b ∧ b.length = 22 := ⟨_, rfl, rfl⟩

/-- Images of other types are refused. -/
theorem unsupported_image {m : CvMat} (hd : 6 < m.depth) (hp : m.rows * m.cols < 2 ^ 31) (heap : Nat → Byte) :
    cvSerializeToString m = .abort ∧ cvSerializeToBuffer heap m = .abort := by
  have : scalarOfDepth m.depth = none := by
    unfold scalarOfDepth
    split <;> first | omega | rfl
  unfold cvSerializeToString cvSerializeToBuffer
  rw [if_pos hp, if_pos hp, this]
  exact ⟨rfl, rfl⟩

example : 6 < (CvMat.mk 1 1 7 1 [0, 0]).depth := by decide

theorem write_nothing (z : Bytes) : writeAt z 0 [] = .ok z := by
  simp [writeAt]

theorem read_nothing (buf : Bytes) (hl : headerSize ≤ buf.length) : readAt buf headerSize 0 = .ok [] := by
  unfold readAt
  rw [if_pos (by omega)]
  simp

theorem copy_nothing {α : Type} (buf z : Bytes) (hl : headerSize ≤ buf.length) (f : Bytes → α) :
    (do let src ← readAt buf headerSize 0
        let data ← writeAt z 0 src
        Outcome.ok (f data)) = .ok (f z) := by
  rw [read_nothing buf hl]
  show (writeAt z 0 [] >>= fun data => Outcome.ok (f data)) = .ok (f z)
  rw [write_nothing]
  rfl

theorem typed_wrap (heap : Nat → Byte) (s : Scalar) (h : Header) (buf : Bytes) (hl : headerSize ≤ buf.length)
    (hp : sizeProd s.size h.rows h.cols h.channels = 0)
    (hk : h.rows < 2 ^ 31 ∧ h.cols < 2 ^ 31 ∧ s.size * h.rows * h.cols * cvChannels h.channels < 2 ^ 63) :
    cvDeSerializeTyped heap s buf 16 h = .ok ⟨h.rows, h.cols, s.depth, cvChannels h.channels,
      (List.range (s.size * h.rows * h.cols * cvChannels h.channels)).map heap⟩ := by
  unfold cvDeSerializeTyped
  have ht : decide (16 = (0 + headerSize) % sizeMod) = true := rfl
  simp only [hp, ht, Outcome.check_true, Outcome.bind_ok]
  rw [if_pos hk]
  exact copy_nothing buf _ hl
    (fun d => (⟨h.rows, h.cols, s.depth, cvChannels h.channels, d⟩ : CvMat))

theorem bytes_from_buffer (heap : Nat → Byte) (buf : Bytes) (h : Header)
    (hd : Header.deSerializeFromBuffer buf 0 = .ok h) (h0 : h.depth = 0) :
    cvDeSerializeFromBuffer heap buf 16 = cvDeSerializeTyped heap .u8 buf 16 h := by
  unfold cvDeSerializeFromBuffer
  rw [hd, show decide (headerSize ≤ 16) = true from rfl]
  simp only [Outcome.bind_ok, Outcome.check_true, h0, show scalarOfDepth 0 = some .u8 from rfl]

/-- The size that a header announces is computed modulo 2^64: sixteen bytes that announce an image of 2^17 by 2^16 pixels
with 2^31 channels are accepted as complete. The image that is made has 512 channels, and none of its 2^42 bytes was in
the buffer. -/
theorem image_wrap_refuted (heap : Nat → Byte) :
    ∃ m, cvDeSerializeFromBuffer heap (wireHeader (2 ^ 17) (2 ^ 16) 0 (2 ^ 31)) 16 = .ok m ∧
      m.data = (List.range m.data.length).map heap ∧ m.data.length = 2 ^ 42 := by
  have hd := header_deserialize (2 ^ 17) (2 ^ 16) 0 (2 ^ 31) [] [] (off := 0) rfl (by decide)
    (by decide) (by decide) (by decide)
  simp only [List.nil_append, List.append_nil] at hd
  have hk : ∀ n, n = Scalar.u8.size * 2 ^ 17 * 2 ^ 16 * cvChannels (2 ^ 31) → n = 2 ^ 42 := by
    rintro n rfl; decide
  have key := typed_wrap heap .u8 ⟨2 ^ 17, 2 ^ 16, 0, 2 ^ 31⟩ (wireHeader (2 ^ 17) (2 ^ 16) 0 (2 ^ 31))
    (by rw [wireHeader_length]; decide) (by decide) ⟨by decide, by decide, by decide⟩
  simp only at key
  generalize hn : Scalar.u8.size * 2 ^ 17 * 2 ^ 16 * cvChannels (2 ^ 31) = n at key
  have hn' := hk n hn.symm
  clear hn hk
  refine ⟨⟨2 ^ 17, 2 ^ 16, Scalar.u8.depth, cvChannels (2 ^ 31), (List.range n).map heap⟩, ?_, ?_, ?_⟩
  · exact (bytes_from_buffer heap _ _ hd rfl).trans key
  · rw [List.length_map, List.length_range]
  · rw [List.length_map, List.length_range]
    exact hn'

/-! ### Numbers in strings -/

/-- White space in front of a number is skipped. -/
theorem stoll_space (cs : List Char) (c : Char) (h : c ∈ [' ', '\t', '\n', '\x0b', '\x0c', '\r']) :
    stoll (c :: cs) = stoll cs := by
  unfold stoll
  rw [List.dropWhile_cons]
  have : isSpace c = true := by
    simp only [List.mem_cons, List.not_mem_nil, or_false] at h
    rcases h with rfl | rfl | rfl | rfl | rfl | rfl <;> decide
  rw [this]
  rfl

/-- Anything else that is neither a sign nor a digit is not the start of a number. -/
theorem stoll_other (cs : List Char) (c : Char) (h : c ∉ [' ', '\t', '\n', '\x0b', '\x0c', '\r'])
    (hs : c ≠ '-' ∧ c ≠ '+') (hd : digitVal c = none) : stoll (c :: cs) = .exc := by
  have hsp : isSpace c = false := by
    simp only [List.mem_cons, List.not_mem_nil, or_false, not_or] at h
    unfold isSpace
    simp [h]
  unfold stoll
  rw [List.dropWhile_cons, hsp]
  have : parseSigned (c :: cs) = none := by
    unfold parseSigned
    split
    · next e => simp only [List.cons.injEq] at e; exact absurd e.1 hs.1
    · next e => simp only [List.cons.injEq] at e; exact absurd e.1 hs.2
    · next e => simp only [List.cons.injEq] at e; rw [← e.1]; simp [hd]
    · rfl
  simp [this]

/-- A sign must be followed by a digit; a plus changes nothing. -/
theorem stoll_sign (cs : List Char) (c : Char) :
    (digitVal c = none → stoll ('+' :: c :: cs) = .exc ∧ stoll ('-' :: c :: cs) = .exc) ∧
      (digitVal c ≠ none → stoll ('+' :: c :: cs) = stoll (c :: cs)) := by
  have hsp : ∀ x, x = '+' ∨ x = '-' → isSpace x = false := by rintro x (rfl | rfl) <;> decide
  constructor
  · intro hd
    unfold stoll
    simp [List.dropWhile_cons, hsp '+' (.inl rfl), hsp '-' (.inr rfl), parseSigned, hd]
  · intro hd
    have hi : (digitVal c).isSome = true := by
      cases h : digitVal c with
      | none => exact absurd h hd
      | some d => rfl
    obtain ⟨h1, h2, h3⟩ := not_space_of_digit hi
    unfold stoll
    have e : parseSigned (c :: cs) = some (digitsVal (c :: cs) 0 : Int) := by
      unfold parseSigned
      split
      · next e => simp only [List.cons.injEq] at e; exact absurd e.1 h2
      · next e => simp only [List.cons.injEq] at e; exact absurd e.1 h3
      · next e => simp only [List.cons.injEq] at e; rw [← e.1, ← e.2]; simp [hi]
      · next e => simp at e
    have e' : parseSigned ('+' :: c :: cs) = some (digitsVal (c :: cs) 0 : Int) := by simp [parseSigned, hi]
    simp only [List.dropWhile_cons, hsp '+' (.inl rfl), h1, Bool.false_eq_true, if_false, e, e']

example : stoll [' ', '+', '4', '2', 'x'] = .ok 42 ∧ stoll ['+', ' ', '4'] = .exc := by decide

/-- The values of a type are those that a conversion to the type gives. -/
theorem inRange_iff (t : IntType) (v : Int) : t.InRange v ↔ ∃ w, t.cast w = v := by
  constructor
  · intro h
    refine ⟨v, ?_⟩
    cases t <;> simp only [IntType.InRange] at h <;> simp only [IntType.cast]
    · omega
    · omega
    · omega
    · omega
    · split <;> omega
  · rintro ⟨w, rfl⟩
    cases t <;> simp only [IntType.InRange, IntType.cast]
    · omega
    · omega
    · omega
    · omega
    · split <;> omega

/-- C14: a tie is printed with an even last digit. -/
theorem micros_tie_even {m : Int} {e : Nat} (h : 2 * (m * 10 ^ 6 % 2 ^ e) = 2 ^ e) : micros m e % 2 = 0 := by
  unfold micros
  simp only
  generalize m * 10 ^ 6 / 2 ^ e = q
  split
  · omega
  · split
    · omega
    · split <;> omega

/-- `1/128` is printed as 0.007812, `3/128` as 0.023438. -/
example : micros 1 7 = 7812 ∧ micros 3 7 = 23438 ∧ 2 * ((1 : Int) * 10 ^ 6 % 2 ^ 7) = 2 ^ 7 := by decide

end Verif.Serialization
