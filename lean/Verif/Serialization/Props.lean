import Verif.Serialization.Lemmas

/-!
# Properties of channel serialisation (C11 – C14)

Specification: a matrix is written as four little-endian 32-bit words (rows, columns, element type
code, 1) followed by the bytes of its entries; a list of matrices is a 64-bit count followed by its
elements.  `wireMat` / `wireVec` say this directly on byte lists, without offsets or buffers.
-/

namespace Verif.Serialization

open Verif (Outcome)

/-- A matrix value that can exist: dimensions are `int`s matching the compile-time shape, and the
storage holds exactly `rows * cols` elements and is addressable. -/
structure Mat.Valid (sh : Shape) (m : Mat) : Prop where
  rows_lt : m.rows < 2 ^ 31
  cols_lt : m.cols < 2 ^ 31
  data_len : m.data.length = sh.scalar.size * m.rows * m.cols
  addressable : m.data.length < 2 ^ 63
  rows_fixed : ∀ k, sh.rows = some k → m.rows = k
  cols_fixed : ∀ k, sh.cols = some k → m.cols = k

/-- Wire format of one matrix. -/
def wireMat (s : Scalar) (m : Mat) : Bytes :=
  le 4 m.rows ++ le 4 m.cols ++ le 4 s.depth ++ le 4 1 ++ m.data

/-- Wire format of a list of matrices. -/
def wireVec (s : Scalar) (ms : List Mat) : Bytes :=
  le 8 ms.length ++ ms.flatMap (wireMat s)

theorem wireMat_eq (s : Scalar) (m : Mat) : wireMat s m = wireHeader m.rows m.cols s.depth 1 ++ m.data :=
  rfl

theorem wireMat_length (s : Scalar) (m : Mat) : (wireMat s m).length = 16 + m.data.length := by
  simp [wireMat_eq]

theorem Mat.Valid.fits {sh : Shape} {m : Mat} (h : m.Valid sh) : sh.Fits m.rows m.cols := by
  have h1 := h.rows_lt
  have h2 := h.cols_lt
  refine ⟨fun k hk => ?_, fun k hk => ?_⟩
  · have := h.rows_fixed k hk; omega
  · have := h.cols_fixed k hk; omega

theorem Mat.Valid.len1 {sh : Shape} {m : Mat} (h : m.Valid sh) :
    m.data.length = sh.scalar.size * m.rows * m.cols * 1 := by rw [h.data_len, Nat.mul_one]

/-- Both serialised forms of a matrix are its wire format, whatever the fresh heap block
contained. -/
theorem matrix_serialize {sh : Shape} {m : Mat} (h : m.Valid sh) (heap : Nat → Byte) :
    serializeToBuffer heap sh.scalar m = .ok (wireMat sh.scalar m) ∧
      serializeToString sh.scalar m = .ok (wireMat sh.scalar m) := by
  have hp := sizeProd_eq (a := sh.scalar.size) (b := m.rows) (c := m.cols) (d := 1)
    (by have := h.len1; have := h.addressable; omega)
  have ht : (sizeProd sh.scalar.size m.rows m.cols 1 + headerSize) % sizeMod = m.data.length + 16 := by
    rw [hp, ← h.len1]
    have := h.addressable
    unfold headerSize sizeMod
    omega
  constructor
  · unfold serializeToBuffer serializeRawToBuffer
    simp only [ht]
    exact serialize_into sh.scalar m.data _ h.rows_lt h.cols_lt (by decide) h.len1 h.addressable (by simp)
  · unfold serializeToString serializeRawToString
    simp only [ht]
    rw [show decide (0 < m.data.length + 16) = true from decide_eq_true (Nat.succ_pos _)]
    simp only [Outcome.check_true, Outcome.bind_ok]
    exact serialize_into sh.scalar m.data (List.replicate (m.data.length + 16) 0) h.rows_lt h.cols_lt
      (by decide) h.len1 h.addressable List.length_replicate

/-- Deserialising the wire format of a valid matrix gives the matrix. -/
theorem matrix_deserialize_wire {sh : Shape} {m : Mat} (h : m.Valid sh) :
    deSerializeFromBuffer sh (wireMat sh.scalar m) (wireMat sh.scalar m).length = .ok m := by
  have hp := sizeProd_eq (a := sh.scalar.size) (b := m.rows) (c := m.cols) (d := 1)
    (by have := h.len1; have := h.addressable; omega)
  have hr := h.rows_lt
  have hc := h.cols_lt
  have ha := h.addressable
  unfold deSerializeFromBuffer
  have hd := header_deserialize m.rows m.cols sh.scalar.depth 1 [] m.data (off := 0) rfl (by omega)
    (by omega) (depth_lt _) (by decide)
  simp only [List.nil_append] at hd
  rw [← wireMat_eq] at hd
  rw [wireMat_length, hd, show decide (headerSize ≤ 16 + m.data.length) = true by
    simp [headerSize]]
  simp only [Outcome.check_true, Outcome.bind_ok]
  rw [acceptHeader_eq_ok.mpr ⟨h.fits, rfl, rfl, by rw [← h.data_len]; exact ha⟩]
  simp only [Outcome.bind_ok]
  rw [hp, ← h.len1]
  rw [show decide (16 + m.data.length = (m.data.length + headerSize) % sizeMod) = true by
    unfold headerSize sizeMod; rw [decide_eq_true_eq]; omega]
  have hread := readAt_append (wireHeader m.rows m.cols sh.scalar.depth 1) m.data [] (off := headerSize)
    (n := m.data.length) (by simp [headerSize]) rfl
  rw [List.append_nil, ← wireMat_eq] at hread
  rw [hread]
  rfl

/-- **C11.** For every matrix, serialising to a buffer and to a string produce the same bytes, and
deserialising them gives the same matrix (dimensions and every byte of the entries). -/
theorem matrix_round_trip {sh : Shape} {m : Mat} (h : m.Valid sh) (heap : Nat → Byte) :
    ∃ bytes : Bytes,
      serializeToBuffer heap sh.scalar m = .ok bytes ∧
      serializeToString sh.scalar m = .ok bytes ∧
      deSerializeFromBuffer sh bytes bytes.length = .ok m ∧
      deSerializeFromString sh bytes = .ok m :=
  ⟨wireMat sh.scalar m, (matrix_serialize h heap).1, (matrix_serialize h heap).2,
    matrix_deserialize_wire h, matrix_deserialize_wire h⟩

/-- A 2×3 dynamic matrix of `uint8_t`. -/
example : (Mat.mk 2 3 [1, 2, 3, 4, 5, 6]).Valid ⟨.u8, some 2, none⟩ :=
  ⟨by decide, by decide, by decide, by decide, by decide, by decide⟩

/-- **C11, identity of encodings.** Two matrices with the same serialised form are equal. -/
theorem matrix_encoding_injective {sh : Shape} {m n : Mat} (hm : m.Valid sh) (hn : n.Valid sh)
    (heap : Nat → Byte)
    (h : serializeToBuffer heap sh.scalar m = serializeToBuffer heap sh.scalar n) : m = n := by
  rw [(matrix_serialize hm heap).1, (matrix_serialize hn heap).1] at h
  simp only [Outcome.ok.injEq] at h
  have h1 := matrix_deserialize_wire hm
  rw [h, matrix_deserialize_wire hn] at h1
  simpa using h1.symm

/-- **C12, single matrix.** Deserialising an arbitrary buffer never reads or writes out of bounds
(no undefined behaviour), and when it succeeds the buffer is exactly the encoding of the returned
matrix: dimensions as announced, entries complete, nothing left over. -/
theorem matrix_accepts_only_complete (sh : Shape) (buf : Bytes) :
    deSerializeFromBuffer sh buf buf.length ≠ .ub ∧
      ∀ m, deSerializeFromBuffer sh buf buf.length = .ok m →
        buf = wireMat sh.scalar m ∧ m.data.length = sh.scalar.size * m.rows * m.cols := by
  constructor
  · unfold deSerializeFromBuffer
    refine bind_ne_ub (check_ne_ub _) fun _ hl => ?_
    rw [Outcome.check_eq_ok, decide_eq_true_eq] at hl
    unfold headerSize at hl
    obtain ⟨h, hh⟩ := header_deserialize_ok_of_le (buf := buf) (off := 0) (by omega)
    rw [hh]
    simp only [Outcome.bind_ok]
    refine bind_ne_ub (acceptHeader_ne_ub _ _) fun _ ha => ?_
    have ha := acceptHeader_eq_ok.mp ha
    refine bind_ne_ub (check_ne_ub _) fun _ hs => ?_
    rw [Outcome.check_eq_ok, decide_eq_true_eq] at hs
    have hp := sizeProd_eq (a := sh.scalar.size) (b := h.rows) (c := h.cols) (d := 1) (by omega)
    rw [hp] at hs ⊢
    unfold headerSize sizeMod at hs
    have : sh.scalar.size * h.rows * h.cols * 1 + 16 = buf.length := by omega
    rw [readAt_of_le (by unfold headerSize; omega)]
    simp
  · intro m e
    unfold deSerializeFromBuffer at e
    obtain ⟨_, _, e⟩ := Outcome.bind_eq_ok.mp e
    obtain ⟨h, hh, e⟩ := Outcome.bind_eq_ok.mp e
    obtain ⟨_, ha, e⟩ := Outcome.bind_eq_ok.mp e
    obtain ⟨_, hs, e⟩ := Outcome.bind_eq_ok.mp e
    obtain ⟨d, hd, e⟩ := Outcome.bind_eq_ok.mp e
    have ha := acceptHeader_eq_ok.mp ha
    have hp := sizeProd_eq (a := sh.scalar.size) (b := h.rows) (c := h.cols) (d := 1) (by omega)
    rw [Outcome.check_eq_ok, decide_eq_true_eq] at hs
    rw [hp] at hs hd
    have hlen : sh.scalar.size * h.rows * h.cols * 1 + 16 = buf.length := by
      unfold headerSize sizeMod at hs
      omega
    have hh' := header_deserialize_eq_ok hh
    obtain ⟨_, hdl, hdd⟩ := readAt_eq_ok hd
    simp only [Outcome.ok.injEq] at e
    subst e
    refine ⟨?_, by simp only [hdl, Nat.mul_one]⟩
    have hrest : buf.drop 16 = d := by
      unfold readAt at hd
      rw [if_pos (by unfold headerSize; omega)] at hd
      simp only [Outcome.ok.injEq] at hd
      rw [← hd]
      unfold headerSize
      rw [List.take_of_length_le]
      simp; omega
    have hw := hh'.2.2.2.2.2
    simp only [List.drop_zero, Nat.zero_add] at hw
    rw [hw, hrest, ha.2.1, ha.2.2.1]
    rfl

/-- A buffer that is accepted, and one byte less of it that is refused. -/
example :
    deSerializeFromBuffer ⟨.u8, none, none⟩
        [1, 0, 0, 0, 2, 0, 0, 0, 0, 0, 0, 0, 1, 0, 0, 0, 7, 9] 18 = .ok ⟨1, 2, [7, 9]⟩ ∧
      deSerializeFromBuffer ⟨.u8, none, none⟩
        [1, 0, 0, 0, 2, 0, 0, 0, 0, 0, 0, 0, 1, 0, 0, 0, 7] 17 = .abort := by
  constructor <;> rfl

/-! ### Lists of matrices -/

/-- The loop that adds up the sizes computes the length of the wire format. -/
theorem vectorSize_eq {sh : Shape} {ms : List Mat} (h : ∀ m ∈ ms, m.Valid sh) (size : Nat)
    (hs : size + (ms.flatMap (wireMat sh.scalar)).length < 2 ^ 63) :
    vectorSize sh.scalar ms size = size + (ms.flatMap (wireMat sh.scalar)).length := by
  induction ms generalizing size with
  | nil => simp [vectorSize]
  | cons m ms ih =>
    have hm := h m (by simp)
    have hp := sizeProd_eq (a := sh.scalar.size) (b := m.rows) (c := m.cols) (d := 1)
      (by have := hm.len1; have := hm.addressable; omega)
    have hc : (m :: ms).flatMap (wireMat sh.scalar)
        = wireMat sh.scalar m ++ ms.flatMap (wireMat sh.scalar) := by simp
    rw [hc, List.length_append, wireMat_length] at hs ⊢
    unfold vectorSize
    have ha := hm.addressable
    have hstep : (size + (sizeProd sh.scalar.size m.rows m.cols 1 + headerSize) % sizeMod) % sizeMod
        = size + (16 + m.data.length) := by
      rw [hp, ← hm.len1]
      unfold headerSize sizeMod
      omega
    rw [hstep, ih (fun x hx => h x (by simp [hx])) _ (by omega)]
    omega

/-- The copy loop fills the rest of the buffer with the encodings, and touches nothing before it. -/
theorem serializeElems_eq {sh : Shape} {ms : List Mat} (h : ∀ m ∈ ms, m.Valid sh) (a rest : Bytes)
    (hr : rest.length = (ms.flatMap (wireMat sh.scalar)).length) :
    serializeElems sh.scalar ms a.length (a ++ rest) = .ok (a ++ ms.flatMap (wireMat sh.scalar)) := by
  induction ms generalizing a rest with
  | nil =>
    have : rest = [] := by simpa using hr
    subst this
    simp [serializeElems]
  | cons m ms ih =>
    have hm := h m (by simp)
    have hp := sizeProd_eq (a := sh.scalar.size) (b := m.rows) (c := m.cols) (d := 1)
      (by have := hm.len1; have := hm.addressable; omega)
    have hc : (m :: ms).flatMap (wireMat sh.scalar)
        = wireMat sh.scalar m ++ ms.flatMap (wireMat sh.scalar) := by simp
    rw [hc, List.length_append, wireMat_length] at hr
    obtain ⟨b1, b2, b3, rfl, l1, l2⟩ : ∃ b1 b2 b3 : Bytes, rest = b1 ++ (b2 ++ b3) ∧
        b1.length = 16 ∧ b2.length = m.data.length :=
      ⟨rest.take 16, (rest.drop 16).take m.data.length, (rest.drop 16).drop m.data.length, by
        rw [List.take_append_drop, List.take_append_drop], by simp; omega, by simp; omega⟩
    unfold serializeElems
    have h1 := header_serialize (makeHeader sh.scalar m.rows m.cols 1) a b1 (b2 ++ b3)
      (off := a.length) rfl l1
    rw [List.append_assoc] at h1
    rw [h1, makeHeader_wire _ hm.rows_lt hm.cols_lt (by decide)]
    simp only [Outcome.bind_ok, hp, ← hm.len1]
    have h2 := readAt_append [] m.data [] (off := 0) (n := m.data.length) rfl rfl
    simp only [List.nil_append, List.append_nil] at h2
    rw [h2]
    simp only [Outcome.bind_ok]
    have e3 : a ++ wireHeader m.rows m.cols sh.scalar.depth 1 ++ (b2 ++ b3)
        = (a ++ wireHeader m.rows m.cols sh.scalar.depth 1) ++ b2 ++ b3 := by simp
    rw [e3, writeAt_append _ b2 b3 m.data (by simp [headerSize]) l2.symm]
    simp only [Outcome.bind_ok]
    have e4 : a ++ wireHeader m.rows m.cols sh.scalar.depth 1 ++ m.data
        = a ++ wireMat sh.scalar m := by simp [wireMat_eq]
    rw [e4]
    have hlen : a.length + headerSize + m.data.length = (a ++ wireMat sh.scalar m).length := by
      rw [List.length_append, wireMat_length]; unfold headerSize; omega
    rw [hlen, ih (fun x hx => h x (by simp [hx])) _ b3 (by
      simp only [List.length_append, l1, l2] at hr; omega)]
    simp

/-- The reading loop recovers the list. -/
theorem deSerializeElems_wire {sh : Shape} {ms : List Mat} (h : ∀ m ∈ ms, m.Valid sh)
    (a z : Bytes) :
    deSerializeElems sh (a ++ ms.flatMap (wireMat sh.scalar) ++ z) ms.length a.length = .ok ms := by
  induction ms generalizing a with
  | nil => rfl
  | cons m ms ih =>
    have hm := h m (by simp)
    have hp := sizeProd_eq (a := sh.scalar.size) (b := m.rows) (c := m.cols) (d := 1)
      (by have := hm.len1; have := hm.addressable; omega)
    have hr := hm.rows_lt
    have hc := hm.cols_lt
    let w := ms.flatMap (wireMat sh.scalar)
    have e : a ++ (m :: ms).flatMap (wireMat sh.scalar) ++ z
        = a ++ wireHeader m.rows m.cols sh.scalar.depth 1 ++ (m.data ++ w ++ z) := by
      simp [wireMat_eq, w]
    rw [List.length_cons]
    unfold deSerializeElems
    have h1 := header_deserialize m.rows m.cols sh.scalar.depth 1 a (m.data ++ w ++ z)
      (off := a.length) rfl (by omega) (by omega) (depth_lt _) (by decide)
    rw [← e] at h1
    rw [h1]
    simp only [Outcome.bind_ok]
    rw [acceptHeader_eq_ok.mpr ⟨hm.fits, rfl, rfl, by
      have := hm.addressable; rw [← hm.data_len]; exact this⟩]
    simp only [Outcome.bind_ok, hp, ← hm.len1]
    have e2 : a ++ (m :: ms).flatMap (wireMat sh.scalar) ++ z
        = (a ++ wireHeader m.rows m.cols sh.scalar.depth 1) ++ m.data ++ (w ++ z) := by
      rw [e]; simp
    have h2 := readAt_append (a ++ wireHeader m.rows m.cols sh.scalar.depth 1) m.data (w ++ z)
      (off := a.length + headerSize) (n := m.data.length) (by simp [headerSize]) rfl
    rw [← e2] at h2
    rw [h2]
    simp only [Outcome.bind_ok]
    have h3 := ih (fun x hx => h x (by simp [hx])) (a ++ wireMat sh.scalar m)
    have hlen : (a ++ wireMat sh.scalar m).length = a.length + headerSize + m.data.length := by
      rw [List.length_append, wireMat_length]; unfold headerSize; omega
    have e3 : a ++ (m :: ms).flatMap (wireMat sh.scalar) ++ z
        = a ++ wireMat sh.scalar m ++ ms.flatMap (wireMat sh.scalar) ++ z := by simp
    rw [hlen, ← e3] at h3
    rw [h3]
    rfl

theorem vector_serialize {sh : Shape} {ms : List Mat} (h : ∀ m ∈ ms, m.Valid sh)
    (hsize : (wireVec sh.scalar ms).length < 2 ^ 63) (heap : Nat → Byte) :
    serializeVectorToBuffer heap sh.scalar ms = .ok (wireVec sh.scalar ms) ∧
      serializeVectorToString sh.scalar ms = .ok (wireVec sh.scalar ms) := by
  have hl : (wireVec sh.scalar ms).length = 8 + (ms.flatMap (wireMat sh.scalar)).length := by
    simp [wireVec]
  have hv := vectorSize_eq h 8 (by omega)
  have key : ∀ buf : Bytes, buf.length = 8 + (ms.flatMap (wireMat sh.scalar)).length →
      (writeAt buf 0 (le 8 ms.length) >>= fun buf => serializeElems sh.scalar ms 8 buf)
        = .ok (wireVec sh.scalar ms) := by
    intro buf hb
    obtain ⟨b1, b2, rfl, l1, l2⟩ : ∃ b1 b2 : Bytes, buf = b1 ++ b2 ∧ b1.length = 8 ∧
        b2.length = (ms.flatMap (wireMat sh.scalar)).length :=
      ⟨buf.take 8, buf.drop 8, by simp, by rw [List.length_take]; omega,
        by rw [List.length_drop]; omega⟩
    have h1 := writeAt_append [] b1 b2 (le 8 ms.length) (off := 0) rfl (by simp [l1])
    simp only [List.nil_append] at h1
    rw [h1]
    simp only [Outcome.bind_ok]
    have h2 := serializeElems_eq h (le 8 ms.length) b2 l2
    rw [le_length] at h2
    rw [h2]
    rfl
  constructor
  · unfold serializeVectorToBuffer
    rw [hv]
    exact key _ (by simp)
  · unfold serializeVectorToString
    rw [hv]
    exact key _ (by simp)

/-- **C13.** For every list of matrices, buffer and string form carry the same bytes, and
deserialising them gives the list again. -/
theorem vector_round_trip {sh : Shape} {ms : List Mat} (h : ∀ m ∈ ms, m.Valid sh)
    (hsize : (wireVec sh.scalar ms).length < 2 ^ 63) (heap : Nat → Byte) :
    ∃ bytes : Bytes,
      serializeVectorToBuffer heap sh.scalar ms = .ok bytes ∧
      serializeVectorToString sh.scalar ms = .ok bytes ∧
      deSerializeVectorFromBuffer sh bytes = .ok ms ∧
      deSerializeVectorFromString sh bytes = .ok ms := by
  have hn : ms.length < 2 ^ 63 := by
    have : ms.length ≤ (ms.flatMap (wireMat sh.scalar)).length := by
      clear hsize h
      induction ms with
      | nil => simp
      | cons m ms ih =>
        simp only [List.flatMap_cons, List.length_append, List.length_cons, wireMat_length]
        omega
    simp only [wireVec, List.length_append] at hsize
    omega
  have hd : deSerializeVectorFromBuffer sh (wireVec sh.scalar ms) = .ok ms := by
    unfold deSerializeVectorFromBuffer
    have h1 := readAt_append [] (le 8 ms.length) (ms.flatMap (wireMat sh.scalar)) (off := 0) (n := 8)
      rfl (by simp)
    simp only [List.nil_append] at h1
    unfold wireVec
    rw [h1]
    simp only [Outcome.bind_ok]
    rw [unle_le_of_lt (by omega), if_pos hn]
    have h2 := deSerializeElems_wire h (le 8 ms.length) []
    rw [le_length, List.append_nil] at h2
    exact h2
  exact ⟨wireVec sh.scalar ms, (vector_serialize h hsize heap).1, (vector_serialize h hsize heap).2,
    hd, hd⟩

/-- Two descriptor blocks with different numbers of rows. -/
example : (∀ m ∈ [Mat.mk 2 1 [1, 2], Mat.mk 1 3 [4, 5, 6]], m.Valid ⟨.u8, none, none⟩) ∧
    (wireVec .u8 [Mat.mk 2 1 [1, 2], Mat.mk 1 3 [4, 5, 6]]).length = 45 := by
  constructor
  · intro m hm
    simp only [List.mem_cons, List.not_mem_nil, or_false] at hm
    rcases hm with rfl | rfl <;>
      exact ⟨by decide, by decide, by decide, by decide, fun _ h => by simp at h,
        fun _ h => by simp at h⟩
  · rfl

/-- **C12 fails for lists of matrices.** A buffer that announces one matrix and ends there makes the
deserialiser read past its end; so does a buffer shorter than the count. -/
theorem vector_over_read_refuted (sh : Shape) :
    deSerializeVectorFromBuffer sh [1, 0, 0, 0, 0, 0, 0, 0] = .ub ∧
      deSerializeVectorFromBuffer sh [] = .ub := by
  constructor <;> rfl

/-- **C12 fails for lists of matrices (second way).** A truncated payload is read past its end even
when all headers are complete. -/
theorem vector_truncated_payload_refuted :
    deSerializeVectorFromBuffer ⟨.u8, none, none⟩
      (le 8 1 ++ wireHeader 1 2 0 1 ++ [7]) = .ub := by rfl

theorem deSerializeElems_prefix {sh : Shape} {buf : Bytes} {n off : Nat} {ms : List Mat}
    (e : deSerializeElems sh buf n off = .ok ms) (ho : off ≤ buf.length) :
    ms.length = n ∧ (∃ rest, buf.drop off = ms.flatMap (wireMat sh.scalar) ++ rest) ∧
      ∀ m ∈ ms, m.data.length = sh.scalar.size * m.rows * m.cols := by
  induction n generalizing off ms with
  | zero =>
    simp only [deSerializeElems, Outcome.ok.injEq] at e
    subst e
    exact ⟨rfl, ⟨buf.drop off, by simp⟩, by simp⟩
  | succ n ih =>
    unfold deSerializeElems at e
    obtain ⟨h, hh, e⟩ := Outcome.bind_eq_ok.mp e
    obtain ⟨_, ha, e⟩ := Outcome.bind_eq_ok.mp e
    obtain ⟨d, hd, e⟩ := Outcome.bind_eq_ok.mp e
    obtain ⟨ms', hms, e⟩ := Outcome.bind_eq_ok.mp e
    simp only [Outcome.ok.injEq] at e
    subst e
    have ha := acceptHeader_eq_ok.mp ha
    have hp := sizeProd_eq (a := sh.scalar.size) (b := h.rows) (c := h.cols) (d := 1) (by omega)
    rw [hp, Nat.mul_one] at hd hms
    have hh' := header_deserialize_eq_ok hh
    obtain ⟨hl, hdl, _⟩ := readAt_eq_ok hd
    obtain ⟨h1, ⟨rest, h2⟩, h3⟩ := ih hms hl
    refine ⟨by simp [h1], ⟨rest, ?_⟩, ?_⟩
    · rw [hh'.2.2.2.2.2]
      have hd' : buf.drop (off + 16) = d ++ buf.drop (off + 16 + sh.scalar.size * h.rows * h.cols) := by
        unfold readAt at hd
        rw [if_pos hl] at hd
        simp only [Outcome.ok.injEq] at hd
        rw [← hd, ← List.drop_drop (i := sh.scalar.size * h.rows * h.cols)]
        exact (List.take_append_drop _ _).symm
      have h2' : buf.drop (off + 16 + sh.scalar.size * h.rows * h.cols)
          = ms'.flatMap (wireMat sh.scalar) ++ rest := h2
      rw [hd', h2', ha.2.1, ha.2.2.1]
      simp [wireMat_eq]
    · intro m hm
      rcases List.mem_cons.mp hm with rfl | hm
      · exact hdl
      · exact h3 m hm

/-- **C12 for lists of matrices, partial.** When deserialisation succeeds, the buffer starts with
the complete encoding of the returned list.  Missing (and false, see the refutations): failure is
reported instead of reading past the end, and nothing may follow the encoding. -/
theorem vector_accepts_prefix_partial {sh : Shape} {buf : Bytes} {ms : List Mat}
    (e : deSerializeVectorFromBuffer sh buf = .ok ms) :
    (∃ rest, buf = wireVec sh.scalar ms ++ rest) ∧
      ∀ m ∈ ms, m.data.length = sh.scalar.size * m.rows * m.cols := by
  unfold deSerializeVectorFromBuffer at e
  obtain ⟨r, hr, e⟩ := Outcome.bind_eq_ok.mp e
  obtain ⟨hl, hrl, hbuf⟩ := readAt_eq_ok hr
  simp only at e
  split at e
  · obtain ⟨h1, ⟨rest, h2⟩, h3⟩ := deSerializeElems_prefix e (by omega)
    refine ⟨⟨rest, ?_⟩, h3⟩
    have h4 := le_unle r
    rw [hrl] at h4
    rw [hbuf]
    simp only [List.take_zero, List.nil_append, Nat.zero_add, wireVec]
    rw [h2, h1, h4, List.append_assoc]
  · exact absurd e (by simp)

/-- An accepted buffer with bytes left over. -/
example : deSerializeVectorFromBuffer ⟨.u8, none, none⟩
    (le 8 1 ++ wireHeader 1 2 0 1 ++ [7, 9, 255]) = .ok [⟨1, 2, [7, 9]⟩] := by rfl

/-! ### `cv::Mat` -/

/-- A continuous 2-D image that can exist: one of the supported element types, 1 to 512 channels
(`CV_CN_MAX`), complete storage. -/
structure CvMat.Valid (m : CvMat) (s : Scalar) : Prop where
  depth_eq : m.depth = s.depth
  channels_pos : 1 ≤ m.channels
  channels_le : m.channels ≤ 512
  rows_lt : m.rows < 2 ^ 31
  cols_lt : m.cols < 2 ^ 31
  pixels : m.rows * m.cols < 2 ^ 31
  data_len : m.data.length = s.size * m.rows * m.cols * m.channels

/-- Wire format of an image. -/
def wireCv (m : CvMat) : Bytes :=
  le 4 m.rows ++ le 4 m.cols ++ le 4 m.depth ++ le 4 m.channels ++ m.data

theorem scalarOfDepth_depth (s : Scalar) : scalarOfDepth s.depth = some s := by cases s <;> rfl

theorem scalarOfDepth_some {d : Nat} {s : Scalar} (h : scalarOfDepth d = some s) : d = s.depth := by
  unfold scalarOfDepth at h
  split at h <;> simp only [Option.some.injEq, reduceCtorEq] at h <;> subst h <;> rfl

theorem cvChannels_eq {c : Nat} (h1 : 1 ≤ c) (h2 : c ≤ 512) : cvChannels c = c := by
  unfold cvChannels
  omega

theorem CvMat.Valid.small {m : CvMat} {s : Scalar} (h : m.Valid s) : m.data.length < 2 ^ 63 := by
  rw [h.data_len]
  have h1 : s.size ≤ 8 := by cases s <;> decide
  have h2 := h.channels_le
  have h3 := h.pixels
  calc s.size * m.rows * m.cols * m.channels = s.size * (m.rows * m.cols) * m.channels := by
        rw [Nat.mul_assoc s.size]
    _ ≤ 8 * 2 ^ 31 * 512 := Nat.mul_le_mul (Nat.mul_le_mul h1 (by omega)) h2
    _ < 2 ^ 63 := by decide

/-- **C11 for images.** Serialising any supported image gives the same bytes in both forms and
deserialising gives the image back: dimensions, type, channels and every byte. -/
theorem image_round_trip {m : CvMat} {s : Scalar} (h : m.Valid s) (heap heap' : Nat → Byte) :
    ∃ bytes : Bytes,
      cvSerializeToBuffer heap m = .ok bytes ∧
      cvSerializeToString m = .ok bytes ∧
      cvDeSerializeFromBuffer heap' bytes bytes.length = .ok m ∧
      cvDeSerializeFromString heap' bytes = .ok m := by
  have hsm := h.small
  have hch := h.channels_le
  have hc1 := h.channels_pos
  have hr := h.rows_lt
  have hc := h.cols_lt
  have hp := sizeProd_eq (a := s.size) (b := m.rows) (c := m.cols) (d := m.channels)
    (by have := h.data_len; omega)
  have ht : (sizeProd s.size m.rows m.cols m.channels + headerSize) % sizeMod = m.data.length + 16 := by
    rw [hp, ← h.data_len]
    unfold headerSize sizeMod
    omega
  have hw : wireCv m = wireHeader m.rows m.cols s.depth m.channels ++ m.data := by
    rw [← h.depth_eq]; rfl
  have hwl : (wireCv m).length = 16 + m.data.length := by simp [hw]
  have hdes : cvDeSerializeFromBuffer heap' (wireCv m) (wireCv m).length = .ok m := by
    unfold cvDeSerializeFromBuffer
    have hd := header_deserialize m.rows m.cols s.depth m.channels [] m.data (off := 0) rfl
      (by omega) (by omega) (depth_lt _) (by omega)
    simp only [List.nil_append] at hd
    rw [hwl, hw, hd, show decide (headerSize ≤ 16 + m.data.length) = true by simp [headerSize]]
    simp only [Outcome.check_true, Outcome.bind_ok, scalarOfDepth_depth]
    unfold cvDeSerializeTyped
    simp only [cvChannels_eq hc1 hch]
    rw [hp, ← h.data_len]
    rw [show decide (16 + m.data.length = (m.data.length + headerSize) % sizeMod) = true by
      unfold headerSize sizeMod; rw [decide_eq_true_eq]; omega]
    simp only [Outcome.check_true, Outcome.bind_ok]
    rw [if_pos ⟨hr, hc, hsm⟩]
    have hread := readAt_append (wireHeader m.rows m.cols s.depth m.channels) m.data []
      (off := headerSize) (n := m.data.length) (by simp [headerSize]) rfl
    rw [List.append_nil] at hread
    rw [hread]
    simp only [Outcome.bind_ok]
    have hwr := writeAt_append [] ((List.range m.data.length).map heap') [] m.data (off := 0) rfl
      (by simp)
    simp only [List.nil_append, List.append_nil] at hwr
    rw [hwr]
    simp only [Outcome.bind_ok, ← h.depth_eq]
  refine ⟨wireCv m, ?_, ?_, hdes, hdes⟩
  · unfold cvSerializeToBuffer
    rw [if_pos h.pixels, h.depth_eq, scalarOfDepth_depth]
    simp only
    unfold serializeRawToBuffer
    simp only [ht]
    rw [hw]
    exact serialize_into s m.data _ hr hc (by omega) h.data_len hsm (by simp)
  · unfold cvSerializeToString
    rw [if_pos h.pixels, h.depth_eq, scalarOfDepth_depth]
    simp only
    unfold serializeRawToString
    simp only [ht]
    rw [show decide (0 < m.data.length + 16) = true from decide_eq_true (Nat.succ_pos _), hw]
    simp only [Outcome.check_true, Outcome.bind_ok]
    exact serialize_into s m.data (List.replicate (m.data.length + 16) 0) hr hc (by omega)
      h.data_len hsm List.length_replicate

/-- A 1×2 colour image. -/
example : (CvMat.mk 1 2 0 3 [1, 2, 3, 4, 5, 6]).Valid .u8 :=
  ⟨rfl, by decide, by decide, by decide, by decide, by decide, by decide⟩

/-- **C12 fails for images.** A buffer of 529 bytes announcing a 1×1 image with 513 channels passes
every check; OpenCV allocates a one-channel image (nine bits of the channel count) and `memcpy`
writes 513 bytes into it. -/
theorem image_overflow_refuted (heap : Nat → Byte) :
    ∃ buf : Bytes, cvDeSerializeFromBuffer heap buf buf.length = .ub := by
  refine ⟨wireHeader 1 1 0 513 ++ List.replicate 513 0, ?_⟩
  generalize hz : List.replicate 513 (0 : Byte) = z
  have hzl : z.length = 513 := by rw [← hz, List.length_replicate]
  have hl : (wireHeader 1 1 0 513 ++ z).length = 529 := by
    rw [List.length_append, wireHeader_length, hzl]
  unfold cvDeSerializeFromBuffer
  have hd := header_deserialize 1 1 0 513 [] z (off := 0) rfl (by decide)
    (by decide) (by decide) (by decide)
  simp only [List.nil_append] at hd
  rw [hl, hd]
  rw [show decide (headerSize ≤ 529) = true from rfl]
  simp only [Outcome.bind_ok, Outcome.check_true, show scalarOfDepth 0 = some .u8 from rfl]
  unfold cvDeSerializeTyped
  have hp : sizeProd Scalar.u8.size 1 1 513 = 513 := rfl
  have hc : cvChannels 513 = 1 := rfl
  have ht : decide (529 = (513 + headerSize) % sizeMod) = true := rfl
  have hread := readAt_append (wireHeader 1 1 0 513) z []
    (off := headerSize) (n := 513) (by rw [wireHeader_length]; rfl) hzl.symm
  rw [List.append_nil] at hread
  simp only [hp, hc, ht, Outcome.check_true, Outcome.bind_ok]
  rw [if_pos ⟨by decide, by decide, by decide⟩, hread]
  simp only [Outcome.bind_ok]
  have hw : writeAt ((List.range (Scalar.u8.size * 1 * 1 * 1)).map heap) 0 z = .ub := by
    unfold writeAt
    rw [if_neg]
    rw [hzl, List.length_map, List.length_range]
    decide
  rw [hw]
  rfl

/-- **C12 for images, partial.** When the announced channel count is one OpenCV supports (1 to 512),
deserialising never leaves the buffers, and success means the buffer is exactly the encoding of the
returned image.  Missing (and false, see the refutation): other channel counts. -/
theorem image_accepts_only_complete_partial (heap : Nat → Byte) (buf : Bytes)
    (hch : ∀ h, Header.deSerializeFromBuffer buf 0 = .ok h → 1 ≤ h.channels ∧ h.channels ≤ 512) :
    cvDeSerializeFromBuffer heap buf buf.length ≠ .ub ∧
      ∀ m, cvDeSerializeFromBuffer heap buf buf.length = .ok m → buf = wireCv m := by
  unfold cvDeSerializeFromBuffer
  by_cases hl : headerSize ≤ buf.length
  · rw [show decide (headerSize ≤ buf.length) = true by simpa using hl]
    obtain ⟨h, hh⟩ := header_deserialize_ok_of_le (buf := buf) (off := 0) (by
      unfold headerSize at hl; omega)
    have hc := hch h hh
    have hh' := header_deserialize_eq_ok hh
    rw [hh]
    simp only [Outcome.check_true, Outcome.bind_ok]
    cases hs : scalarOfDepth h.depth with
    | none => simp
    | some s =>
      simp only
      have hdep := scalarOfDepth_some hs
      unfold cvDeSerializeTyped
      simp only [cvChannels_eq hc.1 hc.2]
      by_cases hsz : buf.length = (sizeProd s.size h.rows h.cols h.channels + headerSize) % sizeMod
      · rw [show decide (buf.length = (sizeProd s.size h.rows h.cols h.channels + headerSize) %
          sizeMod) = true by rw [decide_eq_true_eq]; exact hsz]
        simp only [Outcome.check_true, Outcome.bind_ok]
        by_cases hb : h.rows < 2 ^ 31 ∧ h.cols < 2 ^ 31 ∧
            s.size * h.rows * h.cols * h.channels < 2 ^ 63
        · rw [if_pos hb]
          have hp := sizeProd_eq hb.2.2
          rw [hp] at hsz ⊢
          have hlen : buf.length = s.size * h.rows * h.cols * h.channels + 16 := by
            unfold headerSize sizeMod at hsz
            omega
          have hrd := readAt_of_le (buf := buf) (off := headerSize)
            (n := s.size * h.rows * h.cols * h.channels) (by unfold headerSize; omega)
          rw [List.take_of_length_le (by simp [headerSize]; omega)] at hrd
          rw [hrd]
          simp only [Outcome.bind_ok]
          have hwr := writeAt_append []
            ((List.range (s.size * h.rows * h.cols * h.channels)).map heap) []
            (buf.drop headerSize) (off := 0) rfl (by simp [headerSize]; omega)
          simp only [List.nil_append, List.append_nil] at hwr
          rw [hwr]
          refine ⟨by simp, ?_⟩
          intro m hm
          simp only [Outcome.bind_ok, Outcome.ok.injEq] at hm
          subst hm
          have hw := hh'.2.2.2.2.2
          simp only [List.drop_zero, Nat.zero_add, hdep] at hw
          exact hw
        · rw [if_neg hb]; simp
      · rw [show decide (buf.length = (sizeProd s.size h.rows h.cols h.channels + headerSize) %
          sizeMod) = false by simpa using hsz]
        simp
  · rw [show decide (headerSize ≤ buf.length) = false by simpa using hl]
    simp

example : cvDeSerializeFromBuffer (fun _ => 0) (wireHeader 1 1 0 3 ++ [7, 8, 9]) 19
    = .ok ⟨1, 1, 0, 3, [7, 8, 9]⟩ := by rfl

/-! ### Scalars -/

/-- **C14, binary form.** Every value of every scalar type (given by its object representation)
survives the binary form; buffers of another size are refused. -/
theorem scalar_buffer_round_trip (repr : Bytes) :
    (∃ buf, scalarSerializeToBuffer repr = .ok buf ∧
      scalarDeSerializeFromBuffer repr.length buf buf.length = .ok repr) ∧
    ∀ buf sz, buf.length ≠ sz → scalarDeSerializeFromBuffer sz buf buf.length = .abort := by
  constructor
  · refine ⟨repr, ?_, ?_⟩
    · unfold scalarSerializeToBuffer
      have h1 := readAt_append [] repr [] (off := 0) (n := repr.length) rfl rfl
      simp only [List.nil_append, List.append_nil] at h1
      rw [h1]
      simp only [Outcome.bind_ok]
      have h2 := writeAt_append [] (List.replicate repr.length (0 : Byte)) [] repr (off := 0) rfl
        (by simp)
      simp only [List.nil_append, List.append_nil] at h2
      exact h2
    · unfold scalarDeSerializeFromBuffer
      have h1 := readAt_append [] repr [] (off := 0) (n := repr.length) rfl rfl
      simp only [List.nil_append, List.append_nil] at h1
      simp [h1]
  · intro buf sz h
    unfold scalarDeSerializeFromBuffer
    rw [show decide (buf.length = sz) = false by simpa using h]
    simp

example : scalarSerializeToBuffer [1, 2, 3, 4, 5, 6, 7, 8] = .ok [1, 2, 3, 4, 5, 6, 7, 8] := rfl

theorem digitVal_digitChar {d : Nat} (h : d < 10) : digitVal (digitChar d) = some d := by
  match d, h with
  | 0, _ | 1, _ | 2, _ | 3, _ | 4, _ | 5, _ | 6, _ | 7, _ | 8, _ | 9, _ => rfl
  | n + 10, h => omega

theorem digitsVal_append_digit (cs : List Char) (c : Char) (acc d : Nat)
    (hcs : ∀ x ∈ cs, (digitVal x).isSome) (hc : digitVal c = some d) :
    digitsVal (cs ++ [c]) acc = 10 * digitsVal cs acc + d := by
  induction cs generalizing acc with
  | nil => simp [digitsVal, hc]
  | cons x cs ih =>
    have hx := hcs x (by simp)
    obtain ⟨e, he⟩ := Option.isSome_iff_exists.mp hx
    simp only [List.cons_append, digitsVal, he]
    exact ih _ (fun y hy => hcs y (by simp [hy]))

theorem decimal_spec (n : Nat) :
    (∀ c ∈ decimal n, (digitVal c).isSome) ∧ digitsVal (decimal n) 0 = n ∧ decimal n ≠ [] := by
  induction n using Nat.strongRecOn with
  | _ n ih =>
    unfold decimal
    by_cases h : n < 10
    · rw [if_pos h]
      refine ⟨?_, ?_, by simp⟩
      · intro c hc
        rw [List.mem_singleton] at hc
        rw [hc, digitVal_digitChar h]
        rfl
      · simp [digitsVal, digitVal_digitChar h]
    · rw [if_neg h]
      obtain ⟨h1, h2, _⟩ := ih (n / 10) (by omega)
      have hd := digitVal_digitChar (d := n % 10) (by omega)
      refine ⟨?_, ?_, by simp⟩
      · intro c hc
        rcases List.mem_append.mp hc with hc | hc
        · exact h1 c hc
        · rw [List.mem_singleton] at hc
          rw [hc, hd]
          rfl
      · rw [digitsVal_append_digit _ _ _ _ h1 hd, h2]
        omega

theorem not_space_of_digit {c : Char} (h : (digitVal c).isSome) :
    isSpace c = false ∧ c ≠ '-' ∧ c ≠ '+' := by
  unfold digitVal at h
  split at h <;> first | decide | simp at h

theorem parse_decimal (n : Nat) :
    parseSigned ((decimal n).dropWhile isSpace) = some (n : Int) ∧
      parseSigned (('-' :: decimal n).dropWhile isSpace) = some (-(n : Int)) := by
  obtain ⟨h1, h2, h3⟩ := decimal_spec n
  obtain ⟨c, cs, hcs⟩ := List.exists_cons_of_ne_nil h3
  rw [hcs] at h1 h2 ⊢
  have hc := h1 c (by simp)
  obtain ⟨hs, hm, hp⟩ := not_space_of_digit hc
  constructor
  · rw [List.dropWhile_cons_of_neg (by simp [hs])]
    unfold parseSigned
    split
    · next e => simp only [List.cons.injEq] at e; exact absurd e.1 hm
    · next e => simp only [List.cons.injEq] at e; exact absurd e.1 hp
    · next e =>
      simp only [List.cons.injEq] at e
      obtain ⟨rfl, rfl⟩ := e
      rw [if_pos hc, h2]
    · next e => exact absurd e (by simp)
  · rw [List.dropWhile_cons_of_neg (by decide)]
    simp only [parseSigned, hc, if_true, h2]

theorem stoll_toString {v : Int} (h : -(2 ^ 63) ≤ v ∧ v < 2 ^ 63) : stoll (toStringInt v) = .ok v := by
  unfold stoll
  cases v with
  | ofNat n =>
    simp only [toStringInt, (parse_decimal n).1]
    exact if_pos h
  | negSucc n =>
    simp only [toStringInt, (parse_decimal (n + 1)).2]
    rw [if_pos (by omega)]
    congr 1

theorem toStringInt_ne_nil (v : Int) : (toStringInt v).isEmpty = false := by
  cases v with
  | ofNat n =>
    obtain ⟨c, cs, h⟩ := List.exists_cons_of_ne_nil (decimal_spec n).2.2
    simp [toStringInt, h]
  | negSucc n => rfl

/-- **C14, string form of integers, partial.** Every integer scalar below `2^63` survives its decimal
string form; for `int32`, `uint32`, `int64` and `bool` that is every value.  Missing (and false, see
`scalar_string_refuted`): `uint64_t` / `size_t` values from `2^63` on. -/
theorem scalar_string_round_trip_partial {t : IntType} {v : Int} (h : t.InRange v)
    (hv : v < 2 ^ 63) :
    ∃ cs, intSerializeToString v = .ok cs ∧ intDeSerializeFromString t cs = .ok v := by
  refine ⟨toStringInt v, rfl, ?_⟩
  unfold intDeSerializeFromString
  rw [toStringInt_ne_nil, stoll_toString (by cases t <;> simp only [IntType.InRange] at h <;> omega)]
  simp only [Bool.not_false, Outcome.check_true, Outcome.bind_ok, Outcome.ok.injEq]
  cases t <;> simp only [IntType.InRange] at h <;> simp only [IntType.cast]
  · omega
  · omega
  · omega
  · omega
  · split <;> omega

example : intDeSerializeFromString .i64 ['-', '1', '2', '0'] = .ok (-120) := rfl

/-- For the types other than `uint64_t` the bound of the previous theorem always holds. -/
theorem scalar_string_round_trip_signed {t : IntType} (ht : t ≠ .u64) {v : Int} (h : t.InRange v) :
    ∃ cs, intSerializeToString v = .ok cs ∧ intDeSerializeFromString t cs = .ok v :=
  scalar_string_round_trip_partial h (by
    cases t <;> simp only [IntType.InRange] at h <;> first | omega | exact absurd rfl ht)

example : IntType.i64.InRange (-(2 ^ 63)) := by simp [IntType.InRange]

/-- **C14 fails for large `uint64_t` / `size_t` values.** Every value from `2^63` on is written as a
decimal string that the reader cannot read: `std::stoll` throws `std::out_of_range`. -/
theorem scalar_string_refuted {v : Int} (h : IntType.u64.InRange v) (hv : 2 ^ 63 ≤ v) :
    ∃ cs, intSerializeToString v = .ok cs ∧ intDeSerializeFromString .u64 cs = .exc := by
  refine ⟨toStringInt v, rfl, ?_⟩
  unfold intDeSerializeFromString
  rw [toStringInt_ne_nil]
  simp only [Bool.not_false, Outcome.check_true, Outcome.bind_ok]
  have : stoll (toStringInt v) = .exc := by
    cases v with
    | ofNat n =>
      unfold stoll
      simp only [toStringInt, (parse_decimal n).1]
      have hv' : (2 : Int) ^ 63 ≤ (n : Int) := hv
      exact if_neg (by omega)
    | negSucc n => omega
  rw [this]
  rfl

example : IntType.u64.InRange (2 ^ 64 - 1) ∧ (2 : Int) ^ 63 ≤ 2 ^ 64 - 1 := by
  simp [IntType.InRange]

/-- **C14 fails for floating point strings.** Two different doubles (`2^-30` and `0`) have the same
string form, so no reader can recover both. -/
theorem double_string_refuted :
    ∃ m m' : Int, ∃ e e' : Nat, m * 2 ^ e' ≠ m' * 2 ^ e ∧ micros m e = micros m' e' :=
  ⟨1, 0, 30, 0, by decide, by decide⟩

/-- **C14 for floating point strings, partial.** The printed decimal is within half a millionth of
the value `m / 2^e`; integers print exactly.  Missing: equality (false, see
`double_string_refuted`). -/
theorem double_string_error_partial (m : Int) (e : Nat) :
    2 * (micros m e * 2 ^ e - m * 10 ^ 6) ≤ 2 ^ e ∧ 2 * (m * 10 ^ 6 - micros m e * 2 ^ e) ≤ 2 ^ e ∧
      (e = 0 → micros m e = m * 10 ^ 6) := by
  have hpos : (0 : Int) < 2 ^ e := Int.pow_pos (by decide)
  have hdiv := Int.emod_add_mul_ediv (m * 10 ^ 6) (2 ^ e)
  have hr0 := Int.emod_nonneg (m * 10 ^ 6) (b := (2 : Int) ^ e) (by omega)
  have hr1 := Int.emod_lt_of_pos (m * 10 ^ 6) hpos
  unfold micros
  simp only
  generalize hP : (2 : Int) ^ e = P at *
  generalize hN : m * 10 ^ 6 = N at *
  generalize hQ : N / P = q at *
  generalize hR : N % P = r at *
  have c : P * q = q * P := Int.mul_comm _ _
  have d : (q + 1) * P = q * P + P := by rw [Int.add_mul, Int.one_mul]
  refine ⟨?_, ?_, ?_⟩
  · split
    · omega
    · split
      · rw [d]; omega
      · split
        · omega
        · rw [d]; omega
  · split
    · omega
    · split
      · rw [d]; omega
      · split
        · omega
        · rw [d]; omega
  · intro he
    subst he
    simp only [Int.pow_zero] at hP
    subst hP
    rw [if_pos (by omega)]
    omega

example : micros 5 1 = 2500000 ∧ micros (-1) 21 = 0 := by decide

end Verif.Serialization
