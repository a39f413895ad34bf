import Verif.Printing.Model
import Mathlib.Data.List.Basic
import Mathlib.Tactic.Ring

/-!
# What is printed

Texts are given line by line, and lines without line breaks are read back from the text.  Of the wishes that fail, some
have to do with the format of the stream, some with missing names, and one with tracks that are empty.
-/

namespace Verif.Printing

open Verif (Outcome)
open Verif.Decimal (natString intString digits digitChar)

/-- The text of some lines. -/
def unlines (ls : List (List Char)) : List Char := ls.flatMap (· ++ ['\n'])

/-- The last characters of columns of ten are the number, spaces are in front. -/
def column (n : Nat) : List Char := List.replicate (10 - (natString n).length) ' ' ++ natString n

/-! ## Lines are read back -/

theorem break_at {c : Char} : ∀ {a b a' b' : List Char}, c ∉ a → c ∉ a' → a ++ c :: b = a' ++ c :: b' → a = a' ∧ b = b'
  | [], _, [], _, _, _, h => ⟨rfl, (List.cons.inj h).2⟩
  | [], _, x :: a', _, _, h2, h => absurd ((List.cons.inj h).1 ▸ List.mem_cons_self) h2
  | x :: a, _, [], _, h1, _, h => absurd ((List.cons.inj h).1 ▸ List.mem_cons_self) h1
  | x :: a, _, y :: a', _, h1, h2, h => by
    obtain ⟨e, h'⟩ := List.cons.inj h
    obtain ⟨e1, e2⟩ := break_at (fun m => h1 (.tail _ m)) (fun m => h2 (.tail _ m)) h'
    exact ⟨by rw [e, e1], e2⟩

theorem unlines_nil : unlines [] = [] := rfl

theorem unlines_cons (l : List Char) (ls : List (List Char)) : unlines (l :: ls) = l ++ '\n' :: unlines ls := by
  simp [unlines]

theorem unlines_append (a b : List (List Char)) : unlines (a ++ b) = unlines a ++ unlines b := by
  simp [unlines]

/-- Lines without line breaks are read back. -/
theorem unlines_inj : ∀ {a b : List (List Char)}, (∀ l ∈ a, '\n' ∉ l) → (∀ l ∈ b, '\n' ∉ l) → unlines a = unlines b → a = b
  | [], [], _, _, _ => rfl
  | [], l :: b, _, _, h => by rw [unlines_cons] at h; cases l <;> simp [unlines] at h
  | l :: a, [], _, _, h => by rw [unlines_cons] at h; cases l <;> simp [unlines] at h
  | l :: a, l' :: b, ha, hb, h => by
    rw [unlines_cons, unlines_cons] at h
    obtain ⟨e1, e2⟩ := break_at (ha _ List.mem_cons_self) (hb _ List.mem_cons_self) h
    rw [e1, unlines_inj (fun l hl => ha l (.tail _ hl)) (fun l hl => hb l (.tail _ hl)) e2]

theorem digitChar_ne_break (d : Nat) : digitChar d ≠ '\n' ∧ digitChar d ≠ ' ' ∧ digitChar d ≠ ',' := by
  unfold digitChar; split <;> decide

theorem nat_char {n : Nat} {c : Char} (h : c ∈ natString n) : c ≠ '\n' ∧ c ≠ ' ' ∧ c ≠ ',' := by
  unfold natString at h
  obtain ⟨d, _, e⟩ := List.mem_map.1 h
  rw [← e]; exact digitChar_ne_break d

theorem natString_digit {n : Nat} (h : n < 10) : natString n = [digitChar n] := by
  unfold natString digits
  rw [if_pos h]
  rfl

theorem nat_no_break (n : Nat) : '\n' ∉ natString n := fun h => (nat_char h).1 rfl

theorem int_no_break (n : Int) : '\n' ∉ intString n := by
  cases n with
  | ofNat n => exact nat_no_break n
  | negSucc n =>
    intro h
    rcases List.mem_cons.1 h with h | h
    · exact absurd h (by decide)
    · exact nat_no_break _ h

/-! ## Pieces of text -/

theorem put_zero {s : Stream} (h : s.width = 0) (t : List Char) : s.put t = { s with text := s.text ++ t } := by
  obtain ⟨text, format, width⟩ := s
  simp only at h
  subst h
  simp [Stream.put]

/-- A number in ten columns of a stream that puts text on the right. -/
theorem put_ten {text : List Char} {f : Format} (hl : f.left = false) (hf : f.fill = ' ') (n : Nat) :
    Stream.put ⟨text, f, 10⟩ (natString n) = ⟨text ++ column n, f, 0⟩ := by
  simp [Stream.put, hl, hf, column]

theorem put_mk (t : List Char) (f : Format) (x : List Char) : Stream.put ⟨t, f, 0⟩ x = ⟨t ++ x, f, 0⟩ := by
  simp [Stream.put]

theorem say_mk (t : List Char) (f : Format) (x : String) : Stream.say ⟨t, f, 0⟩ x = ⟨t ++ x.toList, f, 0⟩ := put_mk t f _

theorem endl_mk (t : List Char) (f : Format) (w : Nat) : Stream.endl ⟨t, f, w⟩ = ⟨t ++ ['\n'], f, w⟩ := rfl

theorem setw_mk (t : List Char) (f : Format) (w v : Nat) : Stream.setw ⟨t, f, w⟩ v = ⟨t, f, v⟩ := rfl

theorem setFixed_mk (t : List Char) (f : Format) (w : Nat) :
    Stream.setFixed ⟨t, f, w⟩ = ⟨t, { f with fixed := true }, w⟩ := rfl

theorem setFill_mk (t : List Char) (f : Format) (w : Nat) (c : Char) :
    Stream.setFill ⟨t, f, w⟩ c = ⟨t, { f with fill := c }, w⟩ := rfl

theorem setPrecision_mk (t : List Char) (f : Format) (w p : Nat) :
    Stream.setPrecision ⟨t, f, w⟩ p = ⟨t, { f with precision := p }, w⟩ := rfl

theorem putMatrix_mk {κ : Type} (t : List Char) (f : Format) (w : Nat) (eigen : Format → κ → List Char) (k : κ) :
    Stream.putMatrix ⟨t, f, w⟩ eigen k = ⟨t ++ eigen f k, f, 0⟩ := rfl

/-- The header of the table. -/
theorem header_text {text : List Char} {f : Format} (w : Nat) (hl : f.left = false) :
    ((((((((Stream.setFixed ⟨text, f, w⟩).setFill ' ').setw 10).say "track id").setw 10).say "camera idx").setw 10).say
      "length").endl = ⟨text ++ unlines ["  track idcamera idx    length".toList], { f with fill := ' ', fixed := true }, 0⟩ := by
  have h : ∀ (t : List Char) (x : String), Stream.say ⟨t, { f with fill := ' ', fixed := true }, 10⟩ x
      = ⟨t ++ (List.replicate (10 - x.toList.length) ' ' ++ x.toList), { f with fill := ' ', fixed := true }, 0⟩ := by
    intro t x
    simp [Stream.say, Stream.put, hl]
  simp only [setFixed_mk, setFill_mk, setw_mk, endl_mk]
  rw [h]
  simp only [setw_mk]
  rw [h]
  simp only [setw_mk]
  rw [h]
  simp only [endl_mk, List.append_assoc]
  rfl

theorem column_length {n : Nat} (h : n < 10 ^ 10) : (column n).length = 10 := by
  have : (natString n).length ≤ 10 := by
    unfold natString
    rw [List.length_map]
    exact Decimal.digits_length_le (by omega) h
  unfold column
  rw [List.length_append, List.length_replicate]
  omega

theorem spaces_inj {n m : Nat} : ∀ {k j : Nat},
    List.replicate k ' ' ++ natString n = List.replicate j ' ' ++ natString m → n = m
  | 0, 0, h => Decimal.natString_inj (by simpa using h)
  | k + 1, 0, h => by
    have : ' ' ∈ natString m := by
      rw [← (by simpa using h : List.replicate (k + 1) ' ' ++ natString n = natString m)]; simp
    exact absurd rfl (nat_char this).2.1
  | 0, j + 1, h => by
    have : ' ' ∈ natString n := by
      rw [(by simpa using h : natString n = List.replicate (j + 1) ' ' ++ natString m)]; simp
    exact absurd rfl (nat_char this).2.1
  | k + 1, j + 1, h => by
    rw [List.replicate_succ, List.replicate_succ, List.cons_append, List.cons_append] at h
    exact spaces_inj (List.cons.inj h).2

theorem column_inj {n m : Nat} (h : column n = column m) : n = m := spaces_inj h

theorem column_no_break (n : Nat) : '\n' ∉ column n := by
  unfold column
  intro h
  rcases List.mem_append.1 h with h | h
  · exact absurd (List.eq_of_mem_replicate h) (by decide)
  · exact nat_no_break _ h

/-! ## The table of tracks -/

variable {κ : Type}

/-- What a row of the table says of a track: identifier, camera of the first observation, number of observations. -/
def Track.summary (t : Track κ) : Option (Nat × Nat × Nat) := t.obs.head?.map fun o => (t.id, o.camera, t.obs.length)

/-- The row of the table. -/
def row (r : Nat × Nat × Nat) : List Char := column r.1 ++ column r.2.1 ++ column r.2.2

/-- The format after a table. -/
def tableFormat (f : Format) : Format := { f with fill := ' ', fixed := true, precision := 3 }

theorem printRow_ok {t : Track κ} {r : Nat × Nat × Nat} (h : t.summary = some r) {s : Stream} (hl : s.format.left = false) :
    printRow t s = .ok ⟨s.text ++ (row r ++ ['\n']), tableFormat s.format, 0⟩ := by
  obtain ⟨id, obs⟩ := t
  cases obs with
  | nil => cases h
  | cons o os =>
    simp only [Track.summary, List.head?_cons, Option.map_some, Option.some.injEq] at h
    subst h
    obtain ⟨text, f, w⟩ := s
    simp only at hl
    have h : ∀ (t : List Char) (n : Nat), Stream.put ⟨t, { f with fill := ' ', fixed := true, precision := 3 }, 10⟩ (natString n)
        = ⟨t ++ column n, { f with fill := ' ', fixed := true, precision := 3 }, 0⟩ := fun t n =>
      put_ten (f := { f with fill := ' ', fixed := true, precision := 3 }) hl rfl n
    simp only [printRow, setFixed_mk, setFill_mk, setPrecision_mk, setw_mk]
    rw [h]
    simp only [setw_mk]
    rw [h]
    simp only [setw_mk]
    rw [h]
    simp [endl_mk, row, tableFormat]

theorem printRows_ok : ∀ {ts : List (Track κ)} {rs : List (Nat × Nat × Nat)}, ts.map Track.summary = rs.map some →
    ∀ {s : Stream}, s.format.left = false → ts ≠ [] →
      printRows ts s = .ok ⟨s.text ++ unlines (rs.map row), tableFormat s.format, 0⟩
  | [t], [r], h, s, hl, _ => by
    simp only [List.map_cons, List.map_nil, List.cons.injEq, and_true] at h
    simp only [printRows]
    rw [printRow_ok h hl]
    simp [Outcome.bind_ok, unlines]
  | t :: t' :: ts, r :: rs, h, s, hl, _ => by
    simp only [List.map_cons, List.cons.injEq] at h
    rw [printRows, printRow_ok h.1 hl, Outcome.bind_ok,
      printRows_ok (ts := t' :: ts) (rs := rs) (by simpa using h.2) (by exact hl) (by simp)]
    simp [unlines_cons, tableFormat]
  | [], _, _, _, _, h => absurd rfl h
  | _ :: _, [], h, _, _, _ => by simp at h
  | [_], _ :: _ :: _, h, _, _, _ => by simp at h

/-- **The table of tracks has a header and a row for every track, in order, with identifier, first camera and length in
columns of ten, whatever the fill, width and precision of the stream.** -/
theorem table_rows (ts : List (Track κ)) (rs : List (Nat × Nat × Nat)) (h : ts.map Track.summary = rs.map some)
    (hne : ts ≠ []) {s : Stream} (hl : s.format.left = false) :
    ∃ s', printTracks ts s = .ok s'
      ∧ s'.text = s.text ++ unlines ("  track idcamera idx    length".toList :: rs.map row) := by
  refine ⟨⟨s.text ++ unlines ("  track idcamera idx    length".toList :: rs.map row), tableFormat s.format, 0⟩, ?_, rfl⟩
  obtain ⟨text, f, w⟩ := s
  cases ts with
  | nil => exact absurd rfl hne
  | cons t ts =>
    simp only [printTracks]
    rw [header_text w hl, printRows_ok h (by exact hl) hne]
    simp [tableFormat, unlines]

example : ∃ s', printTracks [⟨7, [⟨[], 1, 0⟩, ⟨[], 0, 5⟩]⟩, ⟨42, [⟨[], 0, 3⟩]⟩] ⟨['x'], { fill := '*', precision := 9 }, 4⟩ = .ok s'
    ∧ s'.text = ['x'] ++ unlines ("  track idcamera idx    length".toList :: [row (7, 1, 2), row (42, 0, 1)]) :=
  table_rows (κ := Nat) _ [(7, 1, 2), (42, 0, 1)] rfl (by simp) rfl

example : row (7, 1, 2) = "         7         1         2".toList := by
  simp [row, column, natString_digit, digitChar]

/-- **Without tracks the table is its header and says so.** -/
theorem table_of_none {s : Stream} (hl : s.format.left = false) :
    ∃ s', printTracks ([] : List (Track κ)) s = .ok s'
      ∧ s'.text = s.text ++ ("  track idcamera idx    length".toList ++ '\n' :: "No tracks!".toList) := by
  obtain ⟨text, f, w⟩ := s
  refine ⟨_, rfl, ?_⟩
  rw [header_text w hl, say_mk]
  simp [unlines]

theorem row_inj {r q : Nat × Nat × Nat} (hr : r.2.1 < 10 ^ 10 ∧ r.2.2 < 10 ^ 10) (hq : q.2.1 < 10 ^ 10 ∧ q.2.2 < 10 ^ 10)
    (h : row r = row q) : r = q := by
  unfold row at h
  obtain ⟨h1, h2⟩ := List.append_inj' h (by rw [column_length hr.2, column_length hq.2])
  obtain ⟨h3, h4⟩ := List.append_inj' h1 (by rw [column_length hr.1, column_length hq.1])
  exact Prod.ext (column_inj h3) (Prod.ext (column_inj h4) (column_inj h2))

/-- **The table says of every track identifier, first camera and length**: tables with the same text are of tracks that
agree in these, unless a column has more than ten digits. -/
theorem table_determines (ts us : List (Track κ)) (rs qs : List (Nat × Nat × Nat)) (ht : ts.map Track.summary = rs.map some)
    (hu : us.map Track.summary = qs.map some) (hr : ∀ r ∈ rs, r.2.1 < 10 ^ 10 ∧ r.2.2 < 10 ^ 10)
    (hq : ∀ q ∈ qs, q.2.1 < 10 ^ 10 ∧ q.2.2 < 10 ^ 10) (hts : ts ≠ []) (hus : us ≠ []) {s a b : Stream}
    (hl : s.format.left = false) (ha : printTracks ts s = .ok a) (hb : printTracks us s = .ok b) (h : a.text = b.text) :
    rs = qs := by
  obtain ⟨a', ha', ea⟩ := table_rows ts rs ht hts hl
  obtain ⟨b', hb', eb⟩ := table_rows us qs hu hus hl
  rw [ha] at ha'
  rw [hb] at hb'
  cases ha'
  cases hb'
  rw [ea, eb] at h
  have hrow : ∀ (l : List (Nat × Nat × Nat)), ∀ x ∈ l.map row, '\n' ∉ x := by
    intro l x hx
    obtain ⟨r, _, e⟩ := List.mem_map.1 hx
    rw [← e]
    unfold row
    simp only [List.mem_append, not_or]
    exact ⟨⟨column_no_break _, column_no_break _⟩, column_no_break _⟩
  have h1 := List.append_cancel_left h
  rw [unlines_cons, unlines_cons] at h1
  have h2 := unlines_inj (hrow rs) (hrow qs) (List.cons.inj (List.append_cancel_left h1)).2
  clear ha hb h h1 ea eb ht hu hrow
  induction rs generalizing qs with
  | nil => cases qs with
    | nil => rfl
    | cons q qs => simp at h2
  | cons r rs ih => cases qs with
    | nil => simp at h2
    | cons q qs =>
      simp only [List.map_cons, List.cons.injEq] at h2
      rw [row_inj (hr _ List.mem_cons_self) (hq _ List.mem_cons_self) h2.1,
        ih qs (fun r h => hr r (.tail _ h)) (fun q h => hq q (.tail _ h)) h2.2]

theorem printRows_abort : ∀ {ts : List (Track κ)} {s : Stream}, (∃ t ∈ ts, t.obs = []) → printRows ts s = .abort
  | t :: ts, s, h => by
    obtain ⟨id, obs⟩ := t
    cases obs with
    | nil => rfl
    | cons o os =>
      obtain ⟨u, hu, e⟩ := h
      rcases List.mem_cons.1 hu with hu | hu
      · subst hu; cases e
      · rw [printRows]
        simp only [printRow, Outcome.bind_ok]
        exact printRows_abort ⟨u, hu, e⟩
  | [], _, h => by obtain ⟨_, h, _⟩ := h; cases h

/-- **The table can be printed exactly if no track is empty.** -/
theorem table_aborts_iff (ts : List (Track κ)) (s : Stream) : printTracks ts s = .abort ↔ ∃ t ∈ ts, t.obs = [] := by
  constructor
  · intro h
    by_contra hc
    push Not at hc
    have key : ∀ (ts : List (Track κ)) (s : Stream), (∀ t ∈ ts, t.obs ≠ []) → ∃ s', printRows ts s = .ok s' := by
      intro ts
      induction ts with
      | nil => exact fun s _ => ⟨s, rfl⟩
      | cons t ts ih =>
        intro s hne
        obtain ⟨id, obs⟩ := t
        cases obs with
        | nil => exact absurd rfl (hne _ List.mem_cons_self)
        | cons o os =>
          rw [printRows]
          simp only [printRow, Outcome.bind_ok]
          exact ih _ fun t ht => hne t (.tail _ ht)
    cases ts with
    | nil => cases h
    | cons t ts =>
      simp only [printTracks] at h
      obtain ⟨s', e⟩ := key (t :: ts) _ hc
      rw [e] at h
      cases h
  · intro h
    cases ts with
    | nil => obtain ⟨_, h, _⟩ := h; cases h
    | cons t ts => exact printRows_abort h

/-- A track without observations is printed alone, not in a table. -/
theorem empty_track_in_table_refuted :
    ¬ ∀ (t : Track Nat) (s : Stream), ∃ s', printTracks [t] s = .ok s' := by
  intro h
  obtain ⟨s', e⟩ := h ⟨5, []⟩ ⟨[], {}, 0⟩
  rw [(table_aborts_iff [⟨5, []⟩] ⟨[], {}, 0⟩).2 ⟨_, List.mem_cons_self, rfl⟩] at e
  cases e

/-- The titles of the first two columns are not apart: the second has ten letters. -/
theorem titles_apart_refuted : ¬ ∀ (t : Track Nat) (s s' : Stream), printTracks [t] s = .ok s' → s.text = [] →
    s.format.left = false → ∃ rest, s'.text = "  track id".toList ++ ' ' :: rest := by
  intro h
  obtain ⟨rest, e⟩ := h ⟨5, [⟨[], 0, 0⟩]⟩ ⟨[], {}, 0⟩ _ rfl rfl rfl
  simp [Stream.setFixed, Stream.setFill, Stream.setw, Stream.say, Stream.put, Stream.endl, Stream.setPrecision] at e

/-- The format of a stream in which a table was printed is another: notation, precision and fill. -/
theorem format_after_table_refuted : ¬ ∀ (t : Track Nat) (s s' : Stream), printTracks [t] s = .ok s' →
    s'.format = s.format := by
  intro h
  have := h ⟨5, [⟨[], 0, 0⟩]⟩ ⟨[], {}, 0⟩ _ rfl
  revert this
  simp [Stream.setFixed, Stream.setFill, Stream.setw, Stream.say, Stream.put, Stream.endl, Stream.setPrecision]

/-- **After a table with tracks the stream has fixed notation, three digits and spaces to fill, and otherwise its format.** -/
theorem format_after_table (ts : List (Track κ)) (hne : ts ≠ []) {s s' : Stream} (h : printTracks ts s = .ok s') :
    s'.format = { s.format with fill := ' ', fixed := true, precision := 3 } ∧ s'.width = 0 := by
  have key : ∀ (ts : List (Track κ)) (a b : Stream), printRows ts a = .ok b → a.width = 0 →
      b.format = (if ts = [] then a.format else tableFormat a.format) ∧ b.width = 0 := by
    intro ts
    induction ts with
    | nil => intro a b h hw; cases h; exact ⟨rfl, hw⟩
    | cons t ts ih =>
      intro a b h hw
      rw [printRows] at h
      obtain ⟨c, hc, h⟩ := Outcome.bind_eq_ok.1 h
      obtain ⟨id, obs⟩ := t
      cases obs with
      | nil => cases hc
      | cons o os =>
        cases hc
        obtain ⟨h1, h2⟩ := ih _ _ h rfl
        refine ⟨?_, h2⟩
        rw [h1]
        by_cases e : ts = []
        · rw [if_pos e, if_neg (List.cons_ne_nil _ _)]; rfl
        · rw [if_neg e, if_neg (List.cons_ne_nil _ _)]; rfl
  cases ts with
  | nil => exact absurd rfl hne
  | cons t ts =>
    simp only [printTracks] at h
    obtain ⟨h1, h2⟩ := key _ _ _ h rfl
    exact ⟨by rw [h1, if_neg (by simp)]; rfl, h2⟩

example : printTracks (κ := Nat) [⟨7, [⟨[], 1, 0⟩]⟩, ⟨8, []⟩] ⟨[], {}, 0⟩ = .abort :=
  (table_aborts_iff _ _).2 ⟨⟨8, []⟩, by simp, rfl⟩

/-! ## The tracks of a rig -/

/-- **The tables of a rig follow each other, each with the index of its camera.** -/
theorem rig_sections (tables : List (List (Track κ) × List (Nat × Nat × Nat)))
    (h : ∀ p ∈ tables, p.1 ≠ [] ∧ p.1.map Track.summary = p.2.map some) {s : Stream} (hl : s.format.left = false)
    (hw : s.width = 0) :
    ∃ s', printRig (tables.map Prod.fst) s = .ok s' ∧ s'.text = s.text ++ unlines (tables.zipIdx.flatMap fun (p, i) =>
      ("Camera: ".toList ++ natString i ++ [':']) :: "  track idcamera idx    length".toList :: p.2.map row ++ [[]]) := by
  have key : ∀ (tables : List (List (Track κ) × List (Nat × Nat × Nat))) (i : Nat) (s : Stream),
      (∀ p ∈ tables, p.1 ≠ [] ∧ p.1.map Track.summary = p.2.map some) → s.format.left = false → s.width = 0 →
      ∃ s', printRigFrom i (tables.map Prod.fst) s = .ok s'
        ∧ s'.text = s.text ++ unlines ((tables.zipIdx i).flatMap fun (p, i) =>
          ("Camera: ".toList ++ natString i ++ [':']) :: "  track idcamera idx    length".toList :: p.2.map row ++ [[]]) := by
    intro tables
    induction tables with
    | nil => exact fun i s _ _ _ => ⟨s, rfl, by simp [unlines]⟩
    | cons p tables ih =>
      intro i s h hl hw
      obtain ⟨hne, hs⟩ := h p List.mem_cons_self
      have e0 : ((s.say "Camera: ").put (natString i)).say ":\n"
          = ⟨s.text ++ unlines ["Camera: ".toList ++ natString i ++ [':']], s.format, 0⟩ := by
        obtain ⟨text, format, width⟩ := s
        simp only at hw
        subst hw
        simp only [say_mk, put_mk]
        simp [unlines]
      simp only [List.map_cons, printRigFrom]
      rw [e0]
      have e1 : printTracks p.1 ⟨s.text ++ unlines ["Camera: ".toList ++ natString i ++ [':']], s.format, 0⟩
          = .ok ⟨s.text ++ unlines (("Camera: ".toList ++ natString i ++ [':']) :: "  track idcamera idx    length".toList ::
              p.2.map row), tableFormat s.format, 0⟩ := by
        obtain ⟨ts, rs⟩ := p
        cases ts with
        | nil => exact absurd rfl hne
        | cons t ts =>
          simp only [printTracks]
          rw [header_text 0 hl, printRows_ok hs (by exact hl) hne]
          simp [unlines, tableFormat]
      rw [e1, Outcome.bind_ok]
      obtain ⟨s', e2, e3⟩ := ih (i + 1) (Stream.say ⟨s.text ++ unlines (("Camera: ".toList ++ natString i ++ [':']) ::
        "  track idcamera idx    length".toList :: p.2.map row), tableFormat s.format, 0⟩ "\n")
        (fun p hp => h p (.tail _ hp)) (by exact hl) rfl
      refine ⟨s', e2, ?_⟩
      rw [e3, say_mk]
      simp [unlines]
  exact key tables 0 s h hl hw

/-! ## One track -/

/-- What the observations of a track look like from the given number on. -/
def obsLines (shown : κ → List Char) (os : List (Obs κ)) (i : Nat) : List (List Char) :=
  (os.zipIdx i).flatMap fun (o, i) =>
    ["\tobservation ".toList ++ natString i ++ [':'], "\t\tNFrameId: ".toList ++ o.nframe,
     "\t\tcamera idx: ".toList ++ natString o.camera, "\t\tkeypoint: ".toList ++ shown o.keypoint, []]

theorem printAllObs_text (eigen : Format → κ → List Char) : ∀ (os : List (Obs κ)) (i : Nat) (s : Stream), s.width = 0 →
    (printAllObs eigen i os s).text
      = s.text ++ unlines (obsLines (eigen { s.format with fixed := true, precision := 3 }) os i)
  | [], i, s, _ => by simp [printAllObs, obsLines, unlines]
  | o :: os, i, s, hw => by
    obtain ⟨text, format, width⟩ := s
    simp only at hw
    subst hw
    rw [printAllObs, printAllObs_text eigen os (i + 1)]
    · simp only [printObs, setFixed_mk, setPrecision_mk, say_mk, put_mk, endl_mk, putMatrix_mk]
      simp [obsLines, unlines]
    · simp only [printObs, setFixed_mk, setPrecision_mk, say_mk, put_mk, endl_mk, putMatrix_mk]

/-- The lines of a track with observations. -/
def trackLines (shown : κ → List Char) (t : Track κ) : List (List Char) :=
  ["FeatureTrack:".toList, "\ttrack id: ".toList ++ natString t.id, "\tlength: ".toList ++ natString t.obs.length]
    ++ obsLines shown t.obs 0

/-- **A track is printed with its identifier, its length and all observations in order: number, n-frame, camera and the
measurement in fixed notation with three digits, whatever notation and precision the stream has.** -/
theorem track_text (eigen : Format → κ → List Char) (t : Track κ) (hne : t.obs ≠ []) {s : Stream} (hw : s.width = 0) :
    (printTrack eigen t s).text
      = s.text ++ unlines (trackLines (eigen { s.format with fixed := true, precision := 3 }) t) := by
  obtain ⟨text, format, width⟩ := s
  simp only at hw
  subst hw
  obtain ⟨id, obs⟩ := t
  cases obs with
  | nil => exact absurd rfl hne
  | cons o os =>
    simp only [printTrack]
    simp only [say_mk, put_mk, endl_mk]
    rw [printAllObs_text _ _ _ _ rfl]
    simp [trackLines, unlines]

example : (printTrack (fun f (k : Nat) => natString (k + f.precision)) ⟨7, [⟨['a'], 1, 4⟩]⟩ ⟨[], {}, 0⟩).text
    = unlines ["FeatureTrack:".toList, "\ttrack id: 7".toList, "\tlength: 1".toList, "\tobservation 0:".toList,
      "\t\tNFrameId: a".toList, "\t\tcamera idx: 1".toList, "\t\tkeypoint: 7".toList, []] := by
  rw [track_text _ _ (by simp) rfl]
  simp [trackLines, obsLines, natString_digit, digitChar]

/-- **Without observations the track says so.** -/
theorem empty_track_text (eigen : Format → κ → List Char) (t : Track κ) (h : t.obs = []) {s : Stream} (hw : s.width = 0) :
    (printTrack eigen t s).text = s.text ++ (unlines ["FeatureTrack:".toList, "\ttrack id: ".toList ++ natString t.id,
      "\tlength: 0".toList] ++ "\tNo observations!".toList) := by
  obtain ⟨text, format, width⟩ := s
  simp only at hw
  subst hw
  obtain ⟨id, obs⟩ := t
  simp only at h
  subst h
  have : natString 0 = ['0'] := by simp [natString, digits, digitChar]
  simp only [printTrack, say_mk, put_mk, endl_mk]
  simp [unlines, this]

theorem not_mem_append {c : Char} {a b : List Char} (ha : c ∉ a) (hb : c ∉ b) : c ∉ a ++ b := by
  simp [ha, hb]

theorem obsLines_no_break {shown : κ → List Char} : ∀ {os : List (Obs κ)} {i : Nat},
    (∀ o ∈ os, '\n' ∉ o.nframe ∧ '\n' ∉ shown o.keypoint) → ∀ l ∈ obsLines shown os i, '\n' ∉ l
  | [], _, _, l, h => by simp [obsLines] at h
  | o :: os, i, ho, l, h => by
    have e : obsLines shown (o :: os) i
        = ["\tobservation ".toList ++ natString i ++ [':'], "\t\tNFrameId: ".toList ++ o.nframe,
          "\t\tcamera idx: ".toList ++ natString o.camera, "\t\tkeypoint: ".toList ++ shown o.keypoint, []]
          ++ obsLines shown os (i + 1) := by simp [obsLines]
    rw [e] at h
    obtain ⟨h1, h2⟩ := ho o List.mem_cons_self
    rcases List.mem_append.1 h with h | h
    · simp only [List.mem_cons, List.not_mem_nil, or_false] at h
      rcases h with h | h | h | h | h <;> subst h
      · exact not_mem_append (not_mem_append (by decide) (nat_no_break _)) (by decide)
      · exact not_mem_append (by decide) h1
      · exact not_mem_append (by decide) (nat_no_break _)
      · exact not_mem_append (by decide) h2
      · simp
    · exact obsLines_no_break (fun o ho' => ho o (.tail _ ho')) l h

/-- **The text of a track says all of it**: identifier, and of every observation n-frame, camera and what is shown of the
measurement. -/
theorem track_determines (eigen : Format → κ → List Char) {s : Stream} (hw : s.width = 0) (shown : κ → List Char)
    (hshown : eigen { s.format with fixed := true, precision := 3 } = shown) (t u : Track κ) (ht : t.obs ≠ []) (hu : u.obs ≠ [])
    (hbt : ∀ o ∈ t.obs, '\n' ∉ o.nframe ∧ '\n' ∉ shown o.keypoint)
    (hbu : ∀ o ∈ u.obs, '\n' ∉ o.nframe ∧ '\n' ∉ shown o.keypoint)
    (h : (printTrack eigen t s).text = (printTrack eigen u s).text) :
    t.id = u.id ∧ t.obs.map (fun o => (o.nframe, o.camera, shown o.keypoint))
      = u.obs.map (fun o => (o.nframe, o.camera, shown o.keypoint)) := by
  rw [track_text eigen t ht hw, track_text eigen u hu hw, hshown] at h
  have hl : ∀ (t : Track κ), (∀ o ∈ t.obs, '\n' ∉ o.nframe ∧ '\n' ∉ shown o.keypoint) →
      ∀ l ∈ trackLines shown t, '\n' ∉ l := by
    intro t ht l hl
    rcases List.mem_append.1 hl with hl | hl
    · simp only [List.mem_cons, List.not_mem_nil, or_false] at hl
      rcases hl with hl | hl | hl <;> subst hl
      · decide
      · exact not_mem_append (by decide) (nat_no_break _)
      · exact not_mem_append (by decide) (nat_no_break _)
    · exact obsLines_no_break ht l hl
  have e := unlines_inj (hl t hbt) (hl u hbu) (List.append_cancel_left h)
  unfold trackLines at e
  simp only [List.cons_append, List.nil_append, List.cons.injEq, true_and] at e
  obtain ⟨e1, _, e3⟩ := e
  refine ⟨Decimal.natString_inj (List.append_cancel_left e1), ?_⟩
  have key : ∀ (a b : List (Obs κ)) (i : Nat), obsLines shown a i = obsLines shown b i →
      a.map (fun o => (o.nframe, o.camera, shown o.keypoint)) = b.map (fun o => (o.nframe, o.camera, shown o.keypoint)) := by
    intro a
    induction a with
    | nil => intro b i h; cases b <;> simp [obsLines] at h ⊢
    | cons o a ih =>
      intro b i h
      cases b with
      | nil => simp [obsLines] at h
      | cons p b =>
        have h' := h
        simp only [obsLines, List.zipIdx_cons, List.flatMap_cons, List.cons_append, List.nil_append, List.cons.injEq,
          true_and] at h'
        obtain ⟨h1, h2, h3, h4⟩ := h'
        simp only [List.map_cons, List.cons.injEq, Prod.mk.injEq]
        exact ⟨⟨List.append_cancel_left h1, Decimal.natString_inj (List.append_cancel_left h2),
          List.append_cancel_left h3⟩, ih b (i + 1) h4⟩
  exact key _ _ 0 e3

/-- A stream in scientific notation keeps that flag: the measurements are asked for with both flags, which means hexadecimal
numbers. -/
theorem fixed_notation_refuted : ¬ ∀ (eigen : Format → Nat → List Char) (t : Track Nat) (s : Stream),
    (printTrack eigen t s).format.scientific = false := by
  intro h
  exact absurd (h (fun _ _ => []) ⟨5, []⟩ ⟨[], { scientific := true }, 0⟩) (by decide)

/-! ## Results and types -/

/-- **The result of a projection is printed on one line with its name.** -/
theorem projection_text (r : Projection) {s : Stream} (hw : s.width = 0) : ∃ name : String,
    (printProjection r s).text = s.text ++ unlines ["ProjectionResult: ".toList ++ name.toList]
      ∧ (r = .visible → name = "KEYPOINT_VISIBLE") ∧ (r = .outside → name = "KEYPOINT_OUTSIDE_IMAGE_BOX")
      ∧ (r = .behind → name = "POINT_BEHIND_CAMERA") ∧ (r = .invalid → name = "PROJECTION_INVALID")
      ∧ ((r = .uninitialized ∨ ∃ n, r = .other n) → name = "UNINITIALIZED") := by
  obtain ⟨text, format, width⟩ := s
  simp only at hw
  subst hw
  cases r with
  | visible => exact ⟨"KEYPOINT_VISIBLE", by simp [printProjection, say_mk, endl_mk, unlines], by simp⟩
  | outside =>
    exact ⟨"KEYPOINT_OUTSIDE_IMAGE_BOX", by simp [printProjection, say_mk, endl_mk, unlines], by simp⟩
  | behind => exact ⟨"POINT_BEHIND_CAMERA", by simp [printProjection, say_mk, endl_mk, unlines], by simp⟩
  | invalid => exact ⟨"PROJECTION_INVALID", by simp [printProjection, say_mk, endl_mk, unlines], by simp⟩
  | uninitialized =>
    exact ⟨"UNINITIALIZED", by simp [printProjection, say_mk, endl_mk, unlines], by simp⟩
  | other n => exact ⟨"UNINITIALIZED", by simp [printProjection, say_mk, endl_mk, unlines], by simp⟩

/-- **The result of a triangulation is printed on one line with its name** (under the title of a projection). -/
theorem triangulation_text (r : Triangulation) {s : Stream} (hw : s.width = 0) : ∃ name : String,
    (printTriangulation r s).text = s.text ++ unlines ["ProjectionResult: ".toList ++ name.toList]
      ∧ (r = .successful → name = "SUCCESSFUL") ∧ (r = .tooFew → name = "TOO_FEW_MEASUREMENTS")
      ∧ (r = .unobservable → name = "UNOBSERVABLE")
      ∧ ((r = .uninitialized ∨ ∃ n, r = .other n) → name = "UNINITIALIZED") := by
  obtain ⟨text, format, width⟩ := s
  simp only at hw
  subst hw
  cases r with
  | successful => exact ⟨"SUCCESSFUL", by simp [printTriangulation, say_mk, endl_mk, unlines], by simp⟩
  | tooFew =>
    exact ⟨"TOO_FEW_MEASUREMENTS", by simp [printTriangulation, say_mk, endl_mk, unlines], by simp⟩
  | unobservable =>
    exact ⟨"UNOBSERVABLE", by simp [printTriangulation, say_mk, endl_mk, unlines], by simp⟩
  | uninitialized =>
    exact ⟨"UNINITIALIZED", by simp [printTriangulation, say_mk, endl_mk, unlines], by simp⟩
  | other n => exact ⟨"UNINITIALIZED", by simp [printTriangulation, say_mk, endl_mk, unlines], by simp⟩

/-- The text does not say whether it was a projection or a triangulation. -/
theorem kind_of_result_refuted : ¬ ∀ (p : Projection) (t : Triangulation) (s : Stream),
    (printProjection p s).text ≠ (printTriangulation t s).text := by
  intro h
  exact h .uninitialized .uninitialized ⟨[], {}, 0⟩ rfl

/-- **The types of distortions have different names.** -/
theorem distortion_names (a b : DistortionType) {s : Stream} (hw : s.width = 0)
    (h : (printDistortionType a s).text = (printDistortionType b s).text) : a = b := by
  obtain ⟨text, format, width⟩ := s
  simp only at hw
  subst hw
  cases a <;> cases b <;> first | rfl | (exfalso; simp [printDistortionType, say_mk] at h)

/-- **The types of cameras with an image have their names.** -/
theorem camera_names {s : Stream} (hw : s.width = 0) : (printCameraType .pinhole s).text = s.text ++ "kPinhole".toList
    ∧ (printCameraType .unified s).text = s.text ++ "kUnifiedProjection".toList := by
  obtain ⟨text, format, width⟩ := s
  simp only at hw
  subst hw
  exact ⟨by simp only [printCameraType, say_mk], by simp only [printCameraType, say_mk]⟩

/-- A lidar has no name: nothing is printed for its type. -/
theorem camera_name_refuted : ¬ ∀ (t : CameraType) (s : Stream), (printCameraType t s).text ≠ s.text := by
  intro h
  exact h .lidar ⟨[], {}, 0⟩ rfl

/-! ## Cameras and frames -/

/-- Specification: the titles of the parameters that a distortion has. -/
def wantedTitles : DistortionType → List String
  | .radtan => ["  k1 (radial):     ", "  k2 (radial):     ", "  p1 (tangential): ", "  p2 (tangential): "]
  | .equidistant => ["  k1: ", "  k2: ", "  k3: ", "  k4: "]
  | .fisheye => ["  w: "]
  | .noDistortion => []

/-- Specification: how the class of a distortion is announced. -/
def wantedClass : DistortionType → String
  | .radtan => "Distortion: (RadTanDistortion) "
  | .equidistant => "Distortion: (EquidistantDistortion) "
  | .fisheye => "Distortion: (FisheyeDistortion) "
  | .noDistortion => "Distortion: (NullDistortion) "

theorem titles_eq : titles = wantedTitles := by funext d; cases d <;> rfl

theorem className_eq : className = wantedClass := by funext d; cases d <;> rfl

/-- What a camera of its type says after the lines that all have. -/
def ownLines (shown : κ → List Char) (c : Camera κ) (label : List Char) : Option (List (List Char)) :=
  let two (title : String) (x y : κ) := title.toList ++ shown x ++ ", ".toList ++ shown y
  let bent := ("  distortion: ".toList ++ label) :: (wantedClass c.distortion.type).toList ::
    ((wantedTitles c.distortion.type).zip c.distortion.parameters).map fun (t, x) => t.toList ++ shown x
  match c.type, c.intrinsics with
  | .pinhole, [fu, fv, cu, cv] =>
    some (two "  focal length (cols,rows): " fu fv :: two "  optical center (cols,rows): " cu cv :: bent)
  | .unified, [xi, fu, fv, cu, cv] =>
    some (("  mirror parameter (xi): ".toList ++ shown xi) :: two "  focal length (cols,rows): " fu fv ::
      two "  optical center (cols,rows): " cu cv :: bent)
  | .lidar, [h, v, _, _] =>
    some ["  horizontal angular resolution [rad]: ".toList ++ shown h,
      "  vertical angular resolution [rad]: ".toList ++ shown v, "  line delay [ns]: ".toList ++ natString c.lineDelay]
  | _, _ => none

/-- The lines of a camera: the label, if there is one, and what all cameras have. -/
def baseLines (c : Camera κ) (label : List Char) : List (List Char) :=
  (if label = [] then [] else [label]) ++
    ["Camera(".toList ++ c.id ++ "): ".toList ++ c.id, "  line delay: ".toList ++ natString c.lineDelay,
     "  image (cols,rows): ".toList ++ natString c.width ++ ", ".toList ++ natString c.height]

/-- A stream with more lines. -/
def Stream.lines (s : Stream) (ls : List (List Char)) : Stream :=
  { s with
    text := s.text ++ unlines ls
    width := 0 }

theorem line_mk (number : Format → κ → List Char) (t : List Char) (f : Format) (title : String) (x : κ) :
    Stream.line ⟨t, f, 0⟩ number title x = ⟨t ++ unlines [title.toList ++ number f x], f, 0⟩ := by
  simp only [Stream.line, say_mk, put_mk, endl_mk]
  simp [unlines]

theorem line2_mk (number : Format → κ → List Char) (t : List Char) (f : Format) (title : String) (x y : κ) :
    Stream.line2 ⟨t, f, 0⟩ number title x y
      = ⟨t ++ unlines [title.toList ++ number f x ++ ", ".toList ++ number f y], f, 0⟩ := by
  simp only [Stream.line2, say_mk, put_mk, endl_mk]
  simp [unlines]

theorem printParameterLines_mk (number : Format → κ → List Char) : ∀ (ts : List String) (xs : List κ) (t : List Char) (f : Format),
    printParameterLines number ts xs ⟨t, f, 0⟩ = ⟨t ++ unlines ((ts.zip xs).map fun (t, x) => t.toList ++ number f x), f, 0⟩
  | [], _, t, f => by simp [printParameterLines, unlines]
  | _ :: _, [], t, f => by simp [printParameterLines, unlines]
  | a :: ts, x :: xs, t, f => by
    rw [printParameterLines, line_mk, printParameterLines_mk number ts xs]
    simp [unlines]

/-- The number of parameters is the one of the type. -/
def Distortion.Proper (d : Distortion κ) : Prop := d.parameters.length = (wantedTitles d.type).length

/-- **The parameters of a distortion are printed line by line after the class.** -/
theorem distortion_text (number : Format → κ → List Char) (d : Distortion κ) (hd : d.Proper) (label t : List Char) (f : Format) :
    printDistortion number d label ⟨t, f, 0⟩ = .ok ⟨t ++ unlines (label :: (wantedClass d.type).toList ::
      ((wantedTitles d.type).zip d.parameters).map fun (t, x) => t.toList ++ number f x), f, 0⟩ := by
  unfold printDistortion
  rw [titles_eq, className_eq]
  have hd' : d.parameters.length = (wantedTitles d.type).length := hd
  rw [if_pos (Or.inr hd')]
  simp only [put_mk, endl_mk, say_mk]
  rw [printParameterLines_mk]
  simp [unlines]

/-- **Printing a distortion aborts exactly if the number of parameters is not the one of the type**, which is not looked at
without distortion. -/
theorem distortion_checked (number : Format → κ → List Char) (d : Distortion κ) (label : List Char) (s : Stream) :
    printDistortion number d label s = .abort ↔ d.parameters.length ≠ (match d.type with
      | .radtan => 4
      | .equidistant => 4
      | .fisheye => 1
      | .noDistortion => d.parameters.length) := by
  obtain ⟨type, ps⟩ := d
  unfold printDistortion
  cases type <;> simp [titles]

/-- Both happen. -/
example (s : Stream) : printDistortion (fun _ (n : Nat) => natString n) ⟨.fisheye, []⟩ [] s = .abort ∧
    printDistortion (fun _ (n : Nat) => natString n) ⟨.fisheye, [1]⟩ [] s ≠ .abort :=
  ⟨(distortion_checked _ _ _ _).2 (by decide), fun h => (distortion_checked _ _ _ _).1 h rfl⟩

theorem printCameraBase_mk (c : Camera κ) (label t : List Char) (f : Format) :
    printCameraBase c label ⟨t, f, 0⟩ = ⟨t ++ unlines (baseLines c label), f, 0⟩ := by
  unfold printCameraBase baseLines
  cases label with
  | nil =>
    simp only [List.length_nil, gt_iff_lt, lt_self_iff_false, if_false, say_mk, put_mk, endl_mk]
    simp [unlines]
  | cons a l =>
    simp only [List.length_cons, gt_iff_lt, Nat.succ_pos, if_true, say_mk, put_mk, endl_mk]
    simp [unlines]

/-- **A camera is printed with the label, its identifier, line delay and size of the image, and then with the parameters of its
type and of its distortion, one to a line.** -/
theorem camera_text (number : Format → κ → List Char) (c : Camera κ) (hd : c.distortion.Proper) (label : List Char) {s : Stream}
    (hw : s.width = 0) {own : List (List Char)} (ho : ownLines (number s.format) c label = some own) :
    printCamera number c label s = .ok (s.lines (baseLines c label ++ own)) := by
  obtain ⟨t, f, w⟩ := s
  simp only at hw
  subst hw
  obtain ⟨type, id, delay, width, height, intrinsics, distortion⟩ := c
  unfold printCamera
  simp only
  rw [printCameraBase_mk]
  unfold ownLines at ho
  simp only at ho hd
  split at ho
  · cases ho
    simp only [line2_mk, say_mk]
    rw [distortion_text number _ hd]
    simp [Stream.lines, unlines]
  · cases ho
    simp only [line_mk, line2_mk, say_mk]
    rw [distortion_text number _ hd]
    simp [Stream.lines, unlines]
  · cases ho
    simp only [line_mk, say_mk, put_mk, endl_mk]
    simp [Stream.lines, unlines]
  · cases ho

/-- What a camera shows of its intrinsics: the lidar does not show the last two. -/
def shownIntrinsics (c : Camera κ) : List κ := if c.type = .lidar then c.intrinsics.take 2 else c.intrinsics

/-- What is needed to read a camera back: no separators in the texts. -/
structure Readable (shown : κ → List Char) (c : Camera κ) : Prop where
  id_break : '\n' ∉ c.id
  id_bracket : ')' ∉ c.id
  shown_break : ∀ x ∈ c.intrinsics ++ c.distortion.parameters, '\n' ∉ shown x
  shown_comma : ∀ x ∈ c.intrinsics, ',' ∉ shown x

theorem className_break (d : DistortionType) : '\n' ∉ (wantedClass d).toList := by cases d <;> decide

theorem titles_break (d : DistortionType) : ∀ t ∈ wantedTitles d, '\n' ∉ t.toList := by cases d <;> decide

theorem bentLines_break {shown : κ → List Char} {d : Distortion κ} (h : ∀ x ∈ d.parameters, '\n' ∉ shown x) :
    ∀ l ∈ ((wantedTitles d.type).zip d.parameters).map (fun (t, x) => t.toList ++ shown x), '\n' ∉ l := by
  intro l hl
  obtain ⟨⟨t, x⟩, hm, e⟩ := List.mem_map.1 hl
  rw [← e]
  exact not_mem_append (titles_break _ _ (List.of_mem_zip hm).1) (h _ (List.of_mem_zip hm).2)

theorem two_break {shown : κ → List Char} (title : String) (ht : '\n' ∉ title.toList) {x y : κ} (hx : '\n' ∉ shown x)
    (hy : '\n' ∉ shown y) : '\n' ∉ title.toList ++ shown x ++ ", ".toList ++ shown y :=
  not_mem_append (not_mem_append (not_mem_append ht hx) (by decide)) hy

theorem ownLines_break {shown : κ → List Char} {c : Camera κ} (hr : Readable shown c) {label : List Char} (hl : '\n' ∉ label)
    {own : List (List Char)} (ho : ownLines shown c label = some own) : ∀ l ∈ own, '\n' ∉ l := by
  have hb := bentLines_break (shown := shown) (d := c.distortion) fun x hx => hr.shown_break x (List.mem_append_right _ hx)
  have hi : ∀ x ∈ c.intrinsics, '\n' ∉ shown x := fun x hx => hr.shown_break x (List.mem_append_left _ hx)
  have hd : '\n' ∉ "  distortion: ".toList ++ label := not_mem_append (by decide) hl
  have hc := className_break c.distortion.type
  unfold ownLines at ho
  simp only at ho
  split at ho
  · next e =>
    rw [e] at hi
    cases ho
    intro l hl
    simp only [List.mem_cons] at hl
    rcases hl with hl | hl | hl | hl | hl
    · subst hl; exact two_break _ (by decide) (hi _ (by simp)) (hi _ (by simp))
    · subst hl; exact two_break _ (by decide) (hi _ (by simp)) (hi _ (by simp))
    · subst hl; exact hd
    · subst hl; exact hc
    · exact hb l hl
  · next e =>
    rw [e] at hi
    cases ho
    intro l hl
    simp only [List.mem_cons] at hl
    rcases hl with hl | hl | hl | hl | hl | hl
    · subst hl; exact not_mem_append (by decide) (hi _ (by simp))
    · subst hl; exact two_break _ (by decide) (hi _ (by simp)) (hi _ (by simp))
    · subst hl; exact two_break _ (by decide) (hi _ (by simp)) (hi _ (by simp))
    · subst hl; exact hd
    · subst hl; exact hc
    · exact hb l hl
  · next e =>
    rw [e] at hi
    cases ho
    intro l hl
    simp only [List.mem_cons, List.not_mem_nil, or_false] at hl
    rcases hl with hl | hl | hl
    · subst hl; exact not_mem_append (by decide) (hi _ (by simp))
    · subst hl; exact not_mem_append (by decide) (hi _ (by simp))
    · subst hl; exact not_mem_append (by decide) (nat_no_break _)
  · cases ho

theorem baseLines_break {shown : κ → List Char} {c : Camera κ} (hr : Readable shown c) {label : List Char} (hl : '\n' ∉ label) :
    ∀ l ∈ baseLines c label, '\n' ∉ l := by
  intro l h
  unfold baseLines at h
  rcases List.mem_append.1 h with h | h
  · split at h
    · cases h
    · rw [List.mem_singleton.1 h]; exact hl
  · simp only [List.mem_cons, List.not_mem_nil, or_false] at h
    rcases h with h | h | h <;> subst h
    · exact not_mem_append (not_mem_append (not_mem_append (by decide) hr.id_break) (by decide)) hr.id_break
    · exact not_mem_append (by decide) (nat_no_break _)
    · exact not_mem_append (not_mem_append (not_mem_append (by decide) (nat_no_break _)) (by decide)) (nat_no_break _)

theorem two_inj {shown : κ → List Char} {title : String} {x y x' y' : κ} (hx : ',' ∉ shown x) (hx' : ',' ∉ shown x')
    (h : title.toList ++ shown x ++ ", ".toList ++ shown y = title.toList ++ shown x' ++ ", ".toList ++ shown y') :
    shown x = shown x' ∧ shown y = shown y' := by
  rw [List.append_assoc, List.append_assoc, List.append_assoc, List.append_assoc] at h
  have h1 := List.append_cancel_left h
  obtain ⟨e1, e2⟩ := break_at (c := ',') (a := shown x) (a' := shown x') (b := ' ' :: shown y) (b' := ' ' :: shown y') hx hx' h1
  exact ⟨e1, (List.cons.inj e2).2⟩

theorem className_inj {a b : DistortionType} (h : (wantedClass a).toList = (wantedClass b).toList) : a = b := by
  have := String.toList_inj.1 h
  cases a <;> cases b <;> first | rfl | (exfalso; revert this; decide)

theorem bent_inj {shown : κ → List Char} : ∀ {ts : List String} {a b : List κ}, a.length = ts.length → b.length = ts.length →
    (ts.zip a).map (fun (t, x) => t.toList ++ shown x) = (ts.zip b).map (fun (t, x) => t.toList ++ shown x) →
    a.map shown = b.map shown
  | [], [], [], _, _, _ => rfl
  | t :: ts, x :: a, y :: b, ha, hb, h => by
    simp only [List.zip_cons_cons, List.map_cons, List.cons.injEq] at h ⊢
    exact ⟨List.append_cancel_left h.1, bent_inj (by simpa using ha) (by simpa using hb) h.2⟩

/-- **The text of a camera says identifier, line delay, size, the intrinsics it shows, and type and parameters of the
distortion, unless it is a lidar.** -/
theorem camera_determines (number : Format → κ → List Char) {s : Stream} (hw : s.width = 0) (shown : κ → List Char)
    (hs : number s.format = shown) (c d : Camera κ) (ht : c.type = d.type) (hc : c.distortion.Proper) (hd : d.distortion.Proper)
    (rc : Readable shown c) (rd : Readable shown d) {label : List Char} (hl : '\n' ∉ label) {oc od : List (List Char)}
    (hoc : ownLines shown c label = some oc) (hod : ownLines shown d label = some od)
    (h : printCamera number c label s = printCamera number d label s) :
    c.id = d.id ∧ c.lineDelay = d.lineDelay ∧ c.width = d.width ∧ c.height = d.height
      ∧ (shownIntrinsics c).map shown = (shownIntrinsics d).map shown
      ∧ (c.type ≠ .lidar → c.distortion.type = d.distortion.type
        ∧ c.distortion.parameters.map shown = d.distortion.parameters.map shown) := by
  subst hs
  rw [camera_text number c hc label hw hoc, camera_text number d hd label hw hod] at h
  have h1 := congrArg Stream.text (Outcome.ok.inj h)
  simp only [Stream.lines] at h1
  have h2 := unlines_inj
    (fun l hm => (List.mem_append.1 hm).elim (baseLines_break rc hl l) (ownLines_break rc hl hoc l))
    (fun l hm => (List.mem_append.1 hm).elim (baseLines_break rd hl l) (ownLines_break rd hl hod l))
    (List.append_cancel_left h1)
  unfold baseLines at h2
  rw [List.append_assoc _ _ oc, List.append_assoc _ _ od] at h2
  have h3 := List.append_cancel_left h2
  simp only [List.cons_append, List.nil_append, List.cons.injEq] at h3
  obtain ⟨e1, e2, e3, e4⟩ := h3
  have i1 : c.id = d.id := by
    rw [List.append_assoc, List.append_assoc, List.append_assoc, List.append_assoc] at e1
    exact (break_at (c := ')') (a := c.id) (a' := d.id) (b := ':' :: ' ' :: c.id) (b' := ':' :: ' ' :: d.id) rc.id_bracket
      rd.id_bracket (List.append_cancel_left e1)).1
  have i2 := Decimal.natString_inj (List.append_cancel_left e2)
  obtain ⟨i3, i4⟩ := two_inj (shown := natString) (fun h => (nat_char h).2.2 rfl) (fun h => (nat_char h).2.2 rfl) e3
  refine ⟨i1, i2, Decimal.natString_inj i3, Decimal.natString_inj i4, ?_⟩
  clear h h1 h2 e1 e2 e3
  have cc := rc.shown_comma
  have cd := rd.shown_comma
  have bent : ∀ {a b : Distortion κ}, a.Proper → b.Proper → (wantedClass a.type).toList = (wantedClass b.type).toList →
      ((wantedTitles a.type).zip a.parameters).map (fun (t, x) => t.toList ++ number s.format x)
        = ((wantedTitles b.type).zip b.parameters).map (fun (t, x) => t.toList ++ number s.format x) →
      a.type = b.type ∧ a.parameters.map (number s.format) = b.parameters.map (number s.format) := by
    intro a b ha hb h1 h2
    have e := className_inj h1
    refine ⟨e, bent_inj (ts := wantedTitles a.type) ha (by rw [e]; exact hb) ?_⟩
    rw [h2, e]
  unfold ownLines at hoc hod
  simp only at hoc hod
  unfold shownIntrinsics
  split at hoc
  · next t1 t2 =>
    rw [← ht, t1] at hod
    split at hod
    · next u1 u2 =>
      cases hoc
      cases hod
      simp only [List.cons.injEq, true_and] at e4
      obtain ⟨f1, f2, f3, f4⟩ := e4
      rw [t2] at cc ⊢
      rw [u2] at cd ⊢
      rw [← ht, t1]
      obtain ⟨g1, g2⟩ := two_inj (cc _ (by simp)) (cd _ (by simp)) f1
      obtain ⟨g3, g4⟩ := two_inj (cc _ (by simp)) (cd _ (by simp)) f2
      exact ⟨by simp [g1, g2, g3, g4], fun _ => bent hc hd f3 f4⟩
    · next u1 _ => cases u1
    · next u1 _ => cases u1
    · cases hod
  · next t1 t2 =>
    rw [← ht, t1] at hod
    split at hod
    · next u1 _ => cases u1
    · next u1 u2 =>
      cases hoc
      cases hod
      simp only [List.cons.injEq, true_and] at e4
      obtain ⟨f0, f1, f2, f3, f4⟩ := e4
      rw [t2] at cc ⊢
      rw [u2] at cd ⊢
      rw [← ht, t1]
      obtain ⟨g1, g2⟩ := two_inj (cc _ (by simp)) (cd _ (by simp)) f1
      obtain ⟨g3, g4⟩ := two_inj (cc _ (by simp)) (cd _ (by simp)) f2
      have g0 := List.append_cancel_left f0
      exact ⟨by simp [g0, g1, g2, g3, g4], fun _ => bent hc hd f3 f4⟩
    · next u1 _ => cases u1
    · cases hod
  · next t1 t2 =>
    rw [← ht, t1] at hod
    split at hod
    · next u1 _ => cases u1
    · next u1 _ => cases u1
    · next u1 u2 =>
      cases hoc
      cases hod
      simp only [List.cons.injEq, and_true] at e4
      obtain ⟨f0, f1, _⟩ := e4
      rw [t2, u2, ← ht, t1]
      exact ⟨by simp [List.append_cancel_left f0, List.append_cancel_left f1], fun h => absurd rfl h⟩
    · cases hod
  · cases hoc

example : printCamera (fun _ => natString) ⟨.pinhole, ['c'], 5, 8, 6, [1, 2, 3, 4], ⟨.fisheye, [9]⟩⟩ ['l'] ⟨[], {}, 0⟩
    = .ok ⟨unlines ["l".toList, "Camera(c): c".toList, "  line delay: 5".toList, "  image (cols,rows): 8, 6".toList,
      "  focal length (cols,rows): 1, 2".toList, "  optical center (cols,rows): 3, 4".toList, "  distortion: l".toList,
      "Distortion: (FisheyeDistortion) ".toList, "  w: 9".toList], {}, 0⟩ := by
  rw [camera_text _ _ (show _ = _ from rfl) _ rfl rfl]
  simp [Stream.lines, baseLines, wantedTitles, wantedClass, natString_digit, digitChar]

example : Readable natString (⟨.pinhole, ['c'], 5, 8, 6, [1, 2, 3, 4], ⟨.fisheye, [9]⟩⟩ : Camera Nat) :=
  ⟨by decide, by decide, fun _ _ => nat_no_break _, fun _ _ h => (nat_char h).2.2 rfl⟩

/-- Lidars that differ in the last two of their four intrinsics, the centres of the angles, are printed alike. -/
theorem lidar_determined_refuted : ¬ ∀ (number : Format → Nat → List Char) (c d : Camera Nat) (s : Stream),
    c.type = .lidar → d.type = .lidar → (∀ f x y, number f x = number f y → x = y) →
    printCamera number c [] s = printCamera number d [] s → c.intrinsics = d.intrinsics := by
  intro h
  have := h (fun _ => natString) ⟨.lidar, [], 0, 8, 4, [1, 2, 3, 4], ⟨.noDistortion, []⟩⟩
    ⟨.lidar, [], 0, 8, 4, [1, 2, 5, 6], ⟨.noDistortion, []⟩⟩ ⟨[], {}, 0⟩ rfl rfl (fun _ _ _ h => Decimal.natString_inj h) rfl
  revert this
  decide

/-- The label stands twice, the second time behind the title of the distortion. -/
theorem label_once_refuted : ¬ ∀ (number : Format → Nat → List Char) (c : Camera Nat) (label : List Char) (s s' : Stream),
    s.text = [] → label ≠ [] → '\n' ∉ label → printCamera number c label s = .ok s' →
    ¬ ∃ before after : List (List Char), s'.text = unlines (label :: before ++ ("  distortion: ".toList ++ label) :: after) := by
  intro h
  let c : Camera Nat := ⟨.pinhole, [], 0, 8, 4, [1, 2, 3, 4], ⟨.noDistortion, []⟩⟩
  refine h (fun _ _ => []) c ['a'] ⟨[], {}, 0⟩ _ rfl (by simp) (by decide)
    (camera_text (fun _ _ => []) c rfl ['a'] (s := ⟨[], {}, 0⟩) rfl rfl) ?_
  refine ⟨["Camera(): ".toList, "  line delay: ".toList ++ natString 0,
    "  image (cols,rows): ".toList ++ natString 8 ++ ", ".toList ++ natString 4, "  focal length (cols,rows): , ".toList,
    "  optical center (cols,rows): , ".toList], ["Distortion: (NullDistortion) ".toList], ?_⟩
  simp [c, Stream.lines, baseLines, wantedTitles, wantedClass]

/-- The lines of the channels. -/
def channelLines (names : List (List Char)) : List (List Char) :=
  if names = [] then ["  Channels: empty".toList] else "  Channels:".toList :: names.map ("   - ".toList ++ ·)

theorem printNames_mk : ∀ (ns : List (List Char)) (t : List Char) (f : Format),
    printNames ns ⟨t, f, 0⟩ = ⟨t ++ unlines (ns.map ("   - ".toList ++ ·)), f, 0⟩
  | [], t, f => by simp [printNames, unlines]
  | n :: ns, t, f => by
    simp only [printNames, say_mk, put_mk, endl_mk]
    rw [printNames_mk ns]
    simp [unlines]

theorem printChannels_mk (ns : List (List Char)) (t : List Char) (f : Format) :
    printChannels ns ⟨t, f, 0⟩ = ⟨t ++ unlines (channelLines ns), f, 0⟩ := by
  cases ns with
  | nil =>
    simp only [printChannels, say_mk, endl_mk]
    simp [channelLines, unlines]
  | cons n ns =>
    simp only [printChannels, say_mk, endl_mk, printNames_mk]
    simp [channelLines, unlines]

/-- The lines of a frame, those of the camera given. -/
def frameLines (f : Frame κ) (label : List Char) (camera : List (List Char)) : List (List Char) :=
  (if label = [] then [] else [label]) ++ ["VisualFrame(".toList ++ f.id ++ [')'],
    "  timestamp:          ".toList ++ intString f.timestamp] ++ camera ++ channelLines f.channels

/-- What the frame says of its camera. -/
def cameraLines (shown : κ → List Char) : Option (Camera κ) → Option (List (List Char))
  | none => some ["  VisualFrame::camera is NULL".toList]
  | some c => (ownLines shown c "  VisualFrame::camera".toList).map (baseLines c "  VisualFrame::camera".toList ++ ·)

/-- **A frame is printed with the label, its identifier, its time, its camera or that it has none, and the names of its
channels.** -/
theorem frame_text (number : Format → κ → List Char) (f : Frame κ) (hd : ∀ c ∈ f.camera, c.distortion.Proper) (label : List Char)
    {s : Stream} (hw : s.width = 0) {camera : List (List Char)} (hc : cameraLines (number s.format) f.camera = some camera) :
    printFrame number f label s = .ok (s.lines (frameLines f label camera)) := by
  obtain ⟨t, g, w⟩ := s
  simp only at hw
  subst hw
  obtain ⟨id, time, cam, channels⟩ := f
  unfold printFrame
  have h0 : (if label.length > 0 then ((⟨t, g, 0⟩ : Stream).put label).endl else ⟨t, g, 0⟩)
      = ⟨t ++ unlines (if label = [] then [] else [label]), g, 0⟩ := by
    cases label <;> simp [put_mk, endl_mk, unlines]
  rw [h0]
  simp only [say_mk, put_mk, endl_mk]
  cases cam with
  | none =>
    cases hc
    simp only [say_mk, endl_mk, Outcome.bind_ok, printChannels_mk]
    simp [Stream.lines, frameLines, unlines]
  | some c =>
    simp only [cameraLines, Option.map_eq_some_iff] at hc
    obtain ⟨own, ho, e⟩ := hc
    subst e
    simp only
    rw [camera_text number c (hd c rfl) _ rfl ho, Outcome.bind_ok]
    simp only [Stream.lines, printChannels_mk]
    simp [frameLines, unlines]

example : printFrame (fun _ => natString) ⟨['f'], -3, none, [['a'], ['b']]⟩ [] ⟨[], {}, 0⟩
    = .ok ⟨unlines ["VisualFrame(f)".toList, "  timestamp:          -3".toList, "  VisualFrame::camera is NULL".toList,
      "  Channels:".toList, "   - a".toList, "   - b".toList], {}, 0⟩ := by
  have : intString (-3) = '-' :: natString 3 := rfl
  rw [frame_text _ _ (by simp) _ rfl rfl]
  simp [Stream.lines, frameLines, channelLines, this, natString_digit, digitChar]

theorem channelLines_break {ns : List (List Char)} (h : ∀ n ∈ ns, '\n' ∉ n) : ∀ l ∈ channelLines ns, '\n' ∉ l := by
  intro l hl
  unfold channelLines at hl
  split at hl
  · rw [List.mem_singleton.1 hl]; decide
  · rcases List.mem_cons.1 hl with hl | hl
    · subst hl; decide
    · obtain ⟨n, hn, e⟩ := List.mem_map.1 hl
      rw [← e]
      exact not_mem_append (by decide) (h n hn)

theorem channelLines_inj {a b : List (List Char)} (h : channelLines a = channelLines b) : a = b := by
  unfold channelLines at h
  split at h <;> split at h
  · next h1 h2 => rw [h1, h2]
  · simp at h
  · simp at h
  · have := (List.cons.inj h).2
    exact (List.map_injective_iff.2 (List.append_right_injective _)) this

/-- **The text of a frame says identifier and time, whether there is a camera, and for the same camera the channels.** -/
theorem frame_determines (number : Format → κ → List Char) {s : Stream} (hw : s.width = 0) (shown : κ → List Char)
    (hs : number s.format = shown) (f g : Frame κ) (hf : ∀ c ∈ f.camera, c.distortion.Proper ∧ Readable shown c)
    (hg : ∀ c ∈ g.camera, c.distortion.Proper ∧ Readable shown c) {label : List Char} (hl : '\n' ∉ label)
    (hif : '\n' ∉ f.id) (hig : '\n' ∉ g.id) (hnf : ∀ n ∈ f.channels, '\n' ∉ n) (hng : ∀ n ∈ g.channels, '\n' ∉ n)
    {cf cg : List (List Char)} (hcf : cameraLines shown f.camera = some cf) (hcg : cameraLines shown g.camera = some cg)
    (h : printFrame number f label s = printFrame number g label s) :
    f.id = g.id ∧ f.timestamp = g.timestamp ∧ (f.camera = none ↔ g.camera = none)
      ∧ (f.camera = g.camera → f.channels = g.channels) := by
  subst hs
  rw [frame_text number f (fun c hc => (hf c hc).1) label hw hcf, frame_text number g (fun c hc => (hg c hc).1) label hw hcg] at h
  have h1 := congrArg Stream.text (Outcome.ok.inj h)
  simp only [Stream.lines] at h1
  have camBreak : ∀ {o : Option (Camera κ)} {ls : List (List Char)}, (∀ c ∈ o, c.distortion.Proper ∧ Readable (number s.format) c) →
      cameraLines (number s.format) o = some ls → ∀ l ∈ ls, '\n' ∉ l := by
    intro o ls ho hls l hl
    cases o with
    | none => cases hls; rw [List.mem_singleton.1 hl]; decide
    | some c =>
      simp only [cameraLines, Option.map_eq_some_iff] at hls
      obtain ⟨own, how, e⟩ := hls
      subst e
      rcases List.mem_append.1 hl with hl | hl
      · exact baseLines_break (ho c rfl).2 (by decide) l hl
      · exact ownLines_break (ho c rfl).2 (by decide) how l hl
  have frameBreak : ∀ {f : Frame κ} {ls : List (List Char)}, '\n' ∉ f.id → (∀ n ∈ f.channels, '\n' ∉ n) → (∀ l ∈ ls, '\n' ∉ l) →
      ∀ l ∈ frameLines f label ls, '\n' ∉ l := by
    intro f ls hid hn hls l hl'
    unfold frameLines at hl'
    simp only [List.mem_append] at hl'
    rcases hl' with ((hl' | hl') | hl') | hl'
    · split at hl'
      · cases hl'
      · rw [List.mem_singleton.1 hl']; exact hl
    · simp only [List.mem_cons, List.not_mem_nil, or_false] at hl'
      rcases hl' with hl' | hl' <;> subst hl'
      · exact not_mem_append (not_mem_append (by decide) hid) (by decide)
      · exact not_mem_append (by decide) (int_no_break _)
    · exact hls l hl'
    · exact channelLines_break hn l hl'
  have h2 := unlines_inj (frameBreak hif hnf (camBreak hf hcf)) (frameBreak hig hng (camBreak hg hcg)) (List.append_cancel_left h1)
  unfold frameLines at h2
  simp only [List.append_assoc] at h2
  have h3 := List.append_cancel_left h2
  simp only [List.cons_append, List.nil_append, List.cons.injEq] at h3
  obtain ⟨e1, e2, e3⟩ := h3
  refine ⟨List.append_cancel_right (List.append_cancel_left e1), Decimal.intString_inj (List.append_cancel_left e2), ?_, ?_⟩
  · have first : ∀ {o : Option (Camera κ)} {ls rest : List (List Char)}, cameraLines (number s.format) o = some ls →
        ((ls ++ rest).head? = some "  VisualFrame::camera is NULL".toList ↔ o = none) := by
      intro o ls rest ho
      cases o with
      | none => cases ho; simp
      | some c =>
        simp only [cameraLines, Option.map_eq_some_iff] at ho
        obtain ⟨own, _, e⟩ := ho
        subst e
        constructor
        · intro h
          exfalso
          revert h
          simp [baseLines]
        · intro h; cases h
    rw [← first hcf (rest := channelLines f.channels), e3, first hcg]
  · intro hcam
    rw [hcam, hcg] at hcf
    cases hcf
    exact channelLines_inj (List.append_cancel_left e3)

end Verif.Printing
