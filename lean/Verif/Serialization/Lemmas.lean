import Verif.Serialization.Model

/-! # Auxiliary lemmas about the serialisation model -/

namespace Verif.Serialization

open Verif (Outcome)

@[simp] theorem le_length (n x : Nat) : (le n x).length = n := by
  induction n generalizing x with
  | zero => rfl
  | succ n ih => simp [le, ih]

theorem unle_le (n x : Nat) : unle (le n x) = x % 256 ^ n := by
  induction n generalizing x with
  | zero => simp [le, unle, Nat.mod_one]
  | succ n ih =>
    simp only [le, unle, ih, UInt8.toNat_ofNat']
    rw [show (256 : Nat) ^ (n + 1) = 256 * 256 ^ n by rw [Nat.pow_succ, Nat.mul_comm], Nat.mod_mul]

theorem unle_le_of_lt {n x : Nat} (h : x < 256 ^ n) : unle (le n x) = x := by
  rw [unle_le, Nat.mod_eq_of_lt h]

theorem le_unle (bs : Bytes) : le bs.length (unle bs) = bs := by
  induction bs with
  | nil => rfl
  | cons b bs ih =>
    have hb : b.toNat < 256 := b.toNat_lt
    have h1 : (b.toNat + 256 * unle bs) / 256 = unle bs := by omega
    simp only [List.length_cons, unle, le, h1, ih, List.cons.injEq, and_true]
    apply UInt8.toNat_inj.mp
    rw [UInt8.toNat_ofNat']
    omega

theorem unle_lt (bs : Bytes) : unle bs < 256 ^ bs.length := by
  induction bs with
  | nil => simp [unle]
  | cons b bs ih =>
    have hb : b.toNat < 256 := b.toNat_lt
    simp only [unle, List.length_cons, Nat.pow_succ]
    omega

theorem readAt_append (a b c : Bytes) {off n : Nat} (ho : off = a.length) (hn : n = b.length) :
    readAt (a ++ b ++ c) off n = .ok b := by
  subst ho hn
  simp [readAt]

theorem readAt_eq_ok {buf : Bytes} {off n : Nat} {r : Bytes} (h : readAt buf off n = .ok r) :
    off + n ≤ buf.length ∧ r.length = n ∧
      buf = buf.take off ++ r ++ buf.drop (off + n) := by
  unfold readAt at h
  split at h
  · next hl =>
    simp only [Outcome.ok.injEq] at h
    subst h
    refine ⟨hl, ?_, ?_⟩
    · simp; omega
    · rw [List.append_assoc]
      rw [← List.drop_drop, List.take_append_drop, List.take_append_drop]
  · exact absurd h (by simp)

theorem readAt_of_le {buf : Bytes} {off n : Nat} (h : off + n ≤ buf.length) :
    readAt buf off n = .ok ((buf.drop off).take n) := by simp [readAt, h]

theorem writeAt_append (a b c bs : Bytes) {off : Nat} (ho : off = a.length)
    (hn : bs.length = b.length) : writeAt (a ++ b ++ c) off bs = .ok (a ++ bs ++ c) := by
  subst ho
  have h1 : a.length + bs.length ≤ (a ++ b ++ c).length := by simp; omega
  have h2 : (a ++ b ++ c).take a.length = a := by simp [List.append_assoc]
  have h3 : (a ++ b ++ c).drop (a.length + bs.length) = c := by
    rw [hn, ← List.length_append, List.drop_left']
    simp
  simp only [writeAt, h1, if_true, h2, h3]

/-- The four header words on the wire. -/
def wireHeader (rows cols depth channels : Nat) : Bytes :=
  le 4 rows ++ le 4 cols ++ le 4 depth ++ le 4 channels

@[simp] theorem wireHeader_length (r c d ch : Nat) : (wireHeader r c d ch).length = 16 := by
  simp [wireHeader]

theorem header_serialize (h : Header) (a b c : Bytes) {off : Nat} (ho : off = a.length)
    (hb : b.length = 16) :
    h.serializeToBuffer (a ++ b ++ c) off
      = .ok (a ++ wireHeader h.rows h.cols h.depth h.channels ++ c) := by
  subst ho
  obtain ⟨b1, r1, rfl, l1, m1⟩ : ∃ b1 r1 : Bytes, b = b1 ++ r1 ∧ b1.length = 4 ∧ r1.length = 12 :=
    ⟨b.take 4, b.drop 4, by simp, by simp; omega, by simp; omega⟩
  obtain ⟨b2, r2, rfl, l2, m2⟩ : ∃ b1 r : Bytes, r1 = b1 ++ r ∧ b1.length = 4 ∧ r.length = 8 :=
    ⟨r1.take 4, r1.drop 4, by simp, by simp; omega, by simp; omega⟩
  obtain ⟨b3, b4, rfl, l3, l4⟩ : ∃ b1 r : Bytes, r2 = b1 ++ r ∧ b1.length = 4 ∧ r.length = 4 :=
    ⟨r2.take 4, r2.drop 4, by simp, by simp; omega, by simp; omega⟩
  unfold Header.serializeToBuffer
  have e1 : a ++ (b1 ++ (b2 ++ (b3 ++ b4))) ++ c = a ++ b1 ++ (b2 ++ b3 ++ b4 ++ c) := by simp
  rw [e1, writeAt_append a b1 _ _ rfl (by simp [l1])]
  simp only [Outcome.bind_ok]
  have e2 : a ++ le 4 h.rows ++ (b2 ++ b3 ++ b4 ++ c)
      = (a ++ le 4 h.rows) ++ b2 ++ (b3 ++ b4 ++ c) := by simp
  rw [e2, writeAt_append (a ++ le 4 h.rows) b2 _ _ (by simp) (by simp [l2])]
  simp only [Outcome.bind_ok]
  have e3 : a ++ le 4 h.rows ++ le 4 h.cols ++ (b3 ++ b4 ++ c)
      = (a ++ le 4 h.rows ++ le 4 h.cols) ++ b3 ++ (b4 ++ c) := by simp
  rw [e3, writeAt_append _ b3 _ _ (by simp) (by simp [l3])]
  simp only [Outcome.bind_ok]
  have e4 : a ++ le 4 h.rows ++ le 4 h.cols ++ le 4 h.depth ++ (b4 ++ c)
      = (a ++ le 4 h.rows ++ le 4 h.cols ++ le 4 h.depth) ++ b4 ++ c := by simp
  rw [e4, writeAt_append _ b4 _ _ (by simp) (by simp [l4])]
  simp [wireHeader]

theorem header_deserialize (r c d ch : Nat) (a z : Bytes) {off : Nat} (ho : off = a.length)
    (hr : r < 2 ^ 32) (hc : c < 2 ^ 32) (hd : d < 2 ^ 32) (hch : ch < 2 ^ 32) :
    Header.deSerializeFromBuffer (a ++ wireHeader r c d ch ++ z) off
      = .ok { rows := r, cols := c, depth := d, channels := ch } := by
  subst ho
  unfold Header.deSerializeFromBuffer wireHeader
  have e1 : a ++ (le 4 r ++ le 4 c ++ le 4 d ++ le 4 ch) ++ z
      = a ++ le 4 r ++ (le 4 c ++ le 4 d ++ le 4 ch ++ z) := by simp
  have e2 : a ++ (le 4 r ++ le 4 c ++ le 4 d ++ le 4 ch) ++ z
      = (a ++ le 4 r) ++ le 4 c ++ (le 4 d ++ le 4 ch ++ z) := by simp
  have e3 : a ++ (le 4 r ++ le 4 c ++ le 4 d ++ le 4 ch) ++ z
      = (a ++ le 4 r ++ le 4 c) ++ le 4 d ++ (le 4 ch ++ z) := by simp
  have e4 : a ++ (le 4 r ++ le 4 c ++ le 4 d ++ le 4 ch) ++ z
      = (a ++ le 4 r ++ le 4 c ++ le 4 d) ++ le 4 ch ++ z := by simp
  have r1 := readAt_append a (le 4 r) (le 4 c ++ le 4 d ++ le 4 ch ++ z) (off := a.length) (n := 4)
    rfl (by simp)
  have r2 := readAt_append (a ++ le 4 r) (le 4 c) (le 4 d ++ le 4 ch ++ z) (off := a.length + 4)
    (n := 4) (by simp) (by simp)
  have r3 := readAt_append (a ++ le 4 r ++ le 4 c) (le 4 d) (le 4 ch ++ z)
    (off := a.length + 4 + 4) (n := 4) (by simp) (by simp)
  have r4 := readAt_append (a ++ le 4 r ++ le 4 c ++ le 4 d) (le 4 ch) z
    (off := a.length + 4 + 4 + 4) (n := 4) (by simp) (by simp)
  rw [← e1] at r1
  rw [← e2] at r2
  rw [← e3] at r3
  rw [← e4] at r4
  rw [r1, r2, r3, r4]
  simp only [Outcome.bind_ok]
  rw [unle_le_of_lt (by simpa using hr), unle_le_of_lt (by simpa using hc),
    unle_le_of_lt (by simpa using hd), unle_le_of_lt (by simpa using hch)]

theorem header_deserialize_ok_of_le {buf : Bytes} {off : Nat} (hl : off + 16 ≤ buf.length) :
    ∃ h, Header.deSerializeFromBuffer buf off = .ok h := by
  unfold Header.deSerializeFromBuffer
  rw [readAt_of_le (by omega), readAt_of_le (by omega), readAt_of_le (by omega),
    readAt_of_le (by omega)]
  exact ⟨_, rfl⟩

/-- A successful header read means the sixteen bytes were there and spell the header. -/
theorem header_deserialize_eq_ok {buf : Bytes} {off : Nat} {h : Header}
    (e : Header.deSerializeFromBuffer buf off = .ok h) :
    off + 16 ≤ buf.length ∧ h.rows < 2 ^ 32 ∧ h.cols < 2 ^ 32 ∧ h.depth < 2 ^ 32 ∧
      h.channels < 2 ^ 32 ∧
      buf.drop off = wireHeader h.rows h.cols h.depth h.channels ++ buf.drop (off + 16) := by
  unfold Header.deSerializeFromBuffer at e
  obtain ⟨r, er, e⟩ := Outcome.bind_eq_ok.mp e
  obtain ⟨c, ec, e⟩ := Outcome.bind_eq_ok.mp e
  obtain ⟨d, ed, e⟩ := Outcome.bind_eq_ok.mp e
  obtain ⟨ch, ech, e⟩ := Outcome.bind_eq_ok.mp e
  simp only [Outcome.ok.injEq] at e
  subst e
  have hl := (readAt_eq_ok ech).1
  have rd : ∀ {o : Nat} {x : Bytes}, readAt buf o 4 = .ok x →
      x.length = 4 ∧ buf.drop o = x ++ buf.drop (o + 4) := by
    intro o x hx
    have h3 := readAt_eq_ok hx
    refine ⟨h3.2.1, ?_⟩
    unfold readAt at hx
    rw [if_pos h3.1] at hx
    simp only [Outcome.ok.injEq] at hx
    rw [← hx, ← List.drop_drop, List.take_append_drop]
  obtain ⟨lr, dr⟩ := rd er
  obtain ⟨lc, dc⟩ := rd ec
  obtain ⟨ld, dd⟩ := rd ed
  obtain ⟨lch, dch⟩ := rd ech
  have b : ∀ x : Bytes, x.length = 4 → unle x < 2 ^ 32 ∧ le 4 (unle x) = x := by
    intro x hx
    refine ⟨by have := unle_lt x; rw [hx] at this; simpa using this, ?_⟩
    have := le_unle x
    rwa [hx] at this
  refine ⟨by omega, (b r lr).1, (b c lc).1, (b d ld).1, (b ch lch).1, ?_⟩
  simp only [wireHeader]
  rw [(b r lr).2, (b c lc).2, (b d ld).2, (b ch lch).2, dr, dc, dd, dch]
  simp [Nat.add_assoc]

theorem sizeProd_eq {a b c d : Nat} (h : a * b * c * d < 2 ^ 63) : sizeProd a b c d = a * b * c * d := by
  unfold sizeProd sizeMod
  rw [Nat.mod_eq_of_lt]
  omega

theorem depth_lt (s : Scalar) : s.depth < 2 ^ 32 := by cases s <;> decide

theorem size_pos (s : Scalar) : 0 < s.size := by cases s <;> decide

theorem makeHeader_wire (s : Scalar) {r c ch : Nat} (hr : r < 2 ^ 31) (hc : c < 2 ^ 31)
    (hch : ch < 2 ^ 31) : makeHeader s r c ch = { rows := r, cols := c, depth := s.depth, channels := ch } := by
  unfold makeHeader
  rw [Nat.mod_eq_of_lt (by omega), Nat.mod_eq_of_lt (by omega), Nat.mod_eq_of_lt (by omega)]

/-- Header and payload copied into any buffer of the right length. -/
theorem serialize_into (s : Scalar) (data buf : Bytes) {r c ch : Nat} (hr : r < 2 ^ 31)
    (hc : c < 2 ^ 31) (hch : ch < 2 ^ 31) (hd : data.length = s.size * r * c * ch)
    (hm : data.length < 2 ^ 63) (hb : buf.length = data.length + 16) :
    ((makeHeader s r c ch).serializeToBuffer buf 0 >>= fun buf =>
      readAt data 0 (sizeProd s.size r c ch) >>= fun src => writeAt buf headerSize src)
      = .ok (wireHeader r c s.depth ch ++ data) := by
  obtain ⟨b1, b2, rfl, l1, l2⟩ : ∃ b1 b2 : Bytes, buf = b1 ++ b2 ∧ b1.length = 16 ∧
      b2.length = data.length :=
    ⟨buf.take 16, buf.drop 16, by simp, by simp; omega, by simp; omega⟩
  have h1 := header_serialize (makeHeader s r c ch) [] b1 b2 (off := 0) rfl l1
  simp only [List.nil_append] at h1
  rw [h1, makeHeader_wire s hr hc hch, sizeProd_eq (by omega), ← hd]
  simp only [Outcome.bind_ok]
  have h2 := readAt_append [] data [] (off := 0) (n := data.length) rfl rfl
  simp only [List.nil_append, List.append_nil] at h2
  rw [h2]
  simp only [Outcome.bind_ok]
  have h3 := writeAt_append (wireHeader r c s.depth ch) b2 [] data (off := headerSize)
    (by simp [headerSize]) l2.symm
  simpa using h3

theorem readAt_length_le {buf : Bytes} {off n : Nat} {r : Bytes} (h : readAt buf off n = .ok r) :
    off + n ≤ buf.length := (readAt_eq_ok h).1

theorem readAt_ne_abort (buf : Bytes) (off n : Nat) : readAt buf off n ≠ .abort := by
  unfold readAt; split <;> simp

theorem check_ne_ub (b : Bool) : Outcome.check b ≠ .ub := by cases b <;> simp

theorem bind_ne_ub {α β : Type} {x : Outcome α} {f : α → Outcome β} (hx : x ≠ .ub)
    (hf : ∀ a, x = .ok a → f a ≠ .ub) : (x >>= f) ≠ .ub := by
  cases x with
  | ok a => exact hf a rfl
  | abort => simp
  | ub => exact absurd rfl hx
  | exc => simp

theorem acceptHeader_ne_ub (sh : Shape) (h : Header) : acceptHeader sh h ≠ .ub := by
  unfold acceptHeader
  have cd : ∀ f g, checkDim f g ≠ .ub := by
    intro f g; unfold checkDim; split
    · simp
    · exact check_ne_ub _
  refine bind_ne_ub (cd _ _) fun _ _ => bind_ne_ub (cd _ _) fun _ _ =>
    bind_ne_ub (check_ne_ub _) fun _ _ => bind_ne_ub (check_ne_ub _) fun _ _ => ?_
  unfold eigenResize; split <;> simp

/-- Dimensions agree with the fixed ones of the Eigen type. -/
def Shape.Fits (sh : Shape) (rows cols : Nat) : Prop :=
  (∀ k, sh.rows = some k → rows = k % 2 ^ 32) ∧ (∀ k, sh.cols = some k → cols = k % 2 ^ 32)

theorem checkDim_ok {f : Option Nat} {g : Nat} :
    checkDim f g = .ok () ↔ ∀ k, f = some k → g = k % 2 ^ 32 := by
  unfold checkDim
  cases f with
  | none => simp
  | some k => simp [Outcome.check_eq_ok]

theorem acceptHeader_eq_ok {sh : Shape} {h : Header} :
    acceptHeader sh h = .ok () ↔
      sh.Fits h.rows h.cols ∧ h.depth = sh.scalar.depth ∧ h.channels = 1 ∧
        sh.scalar.size * h.rows * h.cols < 2 ^ 63 := by
  unfold acceptHeader Shape.Fits
  constructor
  · intro e
    obtain ⟨_, e1, e⟩ := Outcome.bind_eq_ok.mp e
    obtain ⟨_, e2, e⟩ := Outcome.bind_eq_ok.mp e
    obtain ⟨_, e3, e⟩ := Outcome.bind_eq_ok.mp e
    obtain ⟨_, e4, e⟩ := Outcome.bind_eq_ok.mp e
    rw [Outcome.check_eq_ok] at e3 e4
    simp only [decide_eq_true_eq] at e3 e4
    refine ⟨⟨checkDim_ok.mp e1, checkDim_ok.mp e2⟩, e3, e4.symm, ?_⟩
    unfold eigenResize at e
    split at e
    · assumption
    · exact absurd e (by simp)
  · rintro ⟨⟨e1, e2⟩, e3, e4, e5⟩
    rw [checkDim_ok.mpr e1, checkDim_ok.mpr e2]
    simp [e3, e4, eigenResize, e5, Outcome.check]

end Verif.Serialization
