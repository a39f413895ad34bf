import Verif.Yaml.Model
import Verif.Base.Decimal
import Mathlib.Tactic.Linarith

/-!
# Matrices in YAML survive being written and read (C84)
-/

namespace Verif.Yaml

open Verif (Outcome)

/-! ## A way of writing scalars -/

/-- Truth values in words, integers in decimal, fractions as numerator and denominator.  Reading searches for the number
with the given text; this is not what yaml-cpp does, it only shows that the laws can be met. -/
noncomputable def words : Codec :=
  open Classical in
  { numText := fun x => String.ofList (Decimal.intString x.num ++ '/' :: Decimal.natString x.den)
    numRead := fun s =>
      if h : ∃ x : ℚ, String.ofList (Decimal.intString x.num ++ '/' :: Decimal.natString x.den) = s then
        some h.choose else none
    intText := fun n => String.ofList (Decimal.intString n)
    intRead := fun s => if h : ∃ n : Int, String.ofList (Decimal.intString n) = s then some h.choose else none
    natText := fun n => String.ofList (Decimal.natString n)
    natRead := fun b s => if h : ∃ n : Nat, n < 2 ^ b ∧ String.ofList (Decimal.natString n) = s then some h.choose else none
    boolText := fun b => if b then "true" else "false"
    boolRead := fun s => if s = "true" then some true else if s = "false" then some false else none
    int_law := fun n _ _ => by
      have h : ∃ m : Int, String.ofList (Decimal.intString m) = String.ofList (Decimal.intString n) := ⟨n, rfl⟩
      rw [dif_pos h]
      exact congrArg some (Decimal.intString_inj (String.ofList_injective h.choose_spec))
    nat_law := fun b n hn => by
      have h : ∃ m : Nat, m < 2 ^ b ∧ String.ofList (Decimal.natString m) = String.ofList (Decimal.natString n) :=
        ⟨n, hn, rfl⟩
      rw [dif_pos h]
      exact congrArg some (Decimal.natString_inj (String.ofList_injective h.choose_spec.2))
    nat_range := fun b s n hn => by
      split at hn
      · rename_i h
        injection hn with hn
        rw [← hn]
        exact h.choose_spec.1
      · cases hn
    bool_law := by intro b; cases b <;> simp }

theorem split_at {a b : List Char} {c : Char} : ∀ {x y : List Char}, c ∉ x → c ∉ y → x ++ c :: a = y ++ c :: b →
    x = y ∧ a = b
  | [], [], _, _, h => by simpa using h
  | [], d :: y, _, hy, h => by
    simp only [List.nil_append, List.cons_append, List.cons.injEq] at h
    exact absurd (by simp [h.1] : c ∈ d :: y) hy
  | d :: x, [], hx, _, h => by
    simp only [List.nil_append, List.cons_append, List.cons.injEq] at h
    exact absurd (by simp [h.1] : c ∈ d :: x) hx
  | d :: x, e :: y, hx, hy, h => by
    simp only [List.cons_append, List.cons.injEq] at h
    obtain ⟨h1, h2⟩ := split_at (fun q => hx (List.mem_cons_of_mem _ q)) (fun q => hy (List.mem_cons_of_mem _ q)) h.2
    exact ⟨by rw [h.1, h1], h2⟩

theorem slash_nat (n : Nat) : '/' ∉ Decimal.natString n := by
  intro h
  obtain ⟨d, -, e⟩ := List.mem_map.1 h
  revert e
  unfold Decimal.digitChar
  split <;> decide

theorem slash_int (n : Int) : '/' ∉ Decimal.intString n := by
  cases n with
  | ofNat n => exact slash_nat n
  | negSucc n =>
    intro h
    simp only [Decimal.intString, List.mem_cons] at h
    rcases h with h | h
    · exact absurd h (by decide)
    · exact slash_nat _ h

/-- Every fraction survives in that way of writing. -/
theorem words_exact (x : ℚ) : words.Exact x := by
  have h : ∃ y : ℚ, String.ofList (Decimal.intString y.num ++ '/' :: Decimal.natString y.den) =
      String.ofList (Decimal.intString x.num ++ '/' :: Decimal.natString x.den) := ⟨x, rfl⟩
  unfold Codec.Exact words
  simp only
  rw [dif_pos h]
  obtain ⟨h1, h2⟩ := split_at (slash_int _) (slash_int _) (String.ofList_injective h.choose_spec)
  exact congrArg some (Rat.ext (Decimal.intString_inj h1) (Decimal.natString_inj h2))

/-! ## Specification -/

/-- The rows and columns are as many as the matrix says. -/
def Mat.Wf (m : Mat) : Prop := m.data.length = m.rows ∧ ∀ r ∈ m.data, r.length = m.cols

/-- The entry in row `i` and column `j`. -/
def Mat.entry (m : Mat) (i j : Nat) : Option ℚ := m.data[i]?.bind fun r => r[j]?

/-- A matrix of the type `sh`. -/
def Shape.Holds (sh : Shape) (m : Mat) : Prop := (∀ k ∈ sh.rows, m.rows = k) ∧ ∀ k ∈ sh.cols, m.cols = k

/-- A number stands at a node. -/
def Number (C : Codec) (n : Node) (x : ℚ) : Prop := ∃ s, n = .scalar s ∧ C.numRead s = some x

/-! ## Nodes -/

theorem find_insert (m : List (String × Node)) (k : String) (v : Node) : find (insert m k v) k = some v := by
  induction m with
  | nil => simp [insert, find]
  | cons a r ih =>
    obtain ⟨b, w⟩ := a
    by_cases h : b = k
    · simp [insert, find, h]
    · simp [insert, find, h, ih]

theorem find_insert_ne (m : List (String × Node)) {k l : String} (v : Node) (h : k ≠ l) :
    find (insert m k v) l = find m l := by
  induction m with
  | nil => simp [insert, find, h]
  | cons a r ih =>
    obtain ⟨b, w⟩ := a
    by_cases hb : b = k
    · subst hb
      simp [insert, find, h]
    · simp only [insert, if_neg hb, find, ih]

/-- Assigning to an entry of a node that is null or a map gives a map with that entry and the others unchanged. -/
theorem get_set {n : Node} (h : n = .null ∨ n.isMap = true) (k : String) (v : Node) :
    (n.set k v).isMap = true ∧ (n.set k v).get k = some v ∧ ∀ l, k ≠ l → (n.set k v).get l = n.get l := by
  cases n with
  | null => exact ⟨rfl, by simp [Node.set, Node.get, find], fun l hl => by simp [Node.set, Node.get, find, hl]⟩
  | map m => exact ⟨rfl, find_insert m k v, fun l hl => find_insert_ne m v hl⟩
  | scalar s => simp [Node.isMap] at h
  | seq s => simp [Node.isMap] at h

example : ((Node.map [("id", .null)]).set "topic" (.scalar "/cam0")).get "id" = some .null := rfl

theorem asScalar_ok {α : Type} {read : String → Option α} {n : Node} {v : α} :
    asScalar read n = .ok v ↔ ∃ s, n = .scalar s ∧ read s = some v := by
  cases n with
  | scalar s =>
    simp only [asScalar]
    cases h : read s <;> simp [h]
  | null => simp [asScalar]
  | seq s => simp [asScalar]
  | map s => simp [asScalar]

theorem asScalar_cases {α : Type} (read : String → Option α) (n : Node) :
    (∃ v, asScalar read n = .ok v) ∨ asScalar read n = .exc := by
  cases n with
  | scalar s =>
    simp only [asScalar]
    cases h : read s
    · exact Or.inr rfl
    · exact Or.inl ⟨_, rfl⟩
  | null => exact Or.inr rfl
  | seq s => exact Or.inr rfl
  | map s => exact Or.inr rfl

/-- What `safeGet` returns: true exactly if the node is a map with that key and the value there can be read, and then
that value. -/
theorem safeGet_spec {α : Type} (n : Node) (key : String) (read : String → Option α) :
    (∀ v, safeGet n key (asScalar read) = .ok (some v) ↔ ∃ s, n.get key = some (.scalar s) ∧ read s = some v) ∧
      ((∀ v, safeGet n key (asScalar read) ≠ .ok (some v)) → safeGet n key (asScalar read) = .ok none) := by
  cases n with
  | map m =>
    cases h : find m key with
    | none => simp [safeGet, Node.isMap, Node.get, h]
    | some sub =>
      rcases asScalar_cases read sub with ⟨v, hv⟩ | he
      · obtain ⟨s, rfl, hs⟩ := asScalar_ok.1 hv
        simp [safeGet, Node.isMap, Node.get, h, hv, hs]
      · refine ⟨fun v => ?_, fun _ => by simp [safeGet, Node.isMap, Node.get, h, he]⟩
        have : ∀ s, sub = .scalar s → read s ≠ some v := fun s e1 e2 => by
          rw [asScalar_ok.2 ⟨s, e1, e2⟩] at he
          cases he
        constructor
        · intro e
          simp [safeGet, Node.isMap, Node.get, h, he] at e
        · rintro ⟨s, e1, e2⟩
          simp only [Node.get, h, Option.some.injEq] at e1
          exact absurd e2 (this s e1)
  | null => simp [safeGet, Node.isMap, Node.get]
  | scalar s => simp [safeGet, Node.isMap, Node.get]
  | seq s => simp [safeGet, Node.isMap, Node.get]

example : safeGet (.map [("topic", .scalar "/cam0")]) "topic" (asScalar some) = .ok (some "/cam0") := rfl

/-! ## Reading lists -/

theorem readAll_ok {α β : Type} {f : α → Outcome β} : ∀ {l : List α} {vs : List β}, readAll f l = .ok vs →
    vs.length = l.length ∧ ∀ i (h : i < l.length), ∃ v, vs[i]? = some v ∧ f l[i] = .ok v
  | [], vs, h => by
    simp only [readAll, Outcome.ok.injEq] at h
    subst h
    simp
  | e :: es, vs, h => by
    obtain ⟨v, h1, h2⟩ := Outcome.bind_eq_ok.1 h
    obtain ⟨ws, h3, h4⟩ := Outcome.bind_eq_ok.1 h2
    obtain ⟨hl, hr⟩ := readAll_ok h3
    injection h4 with h4
    subst h4
    refine ⟨by simp [hl], fun i hi => ?_⟩
    cases i with
    | zero => exact ⟨v, by simp, h1⟩
    | succ i =>
      obtain ⟨w, hw1, hw2⟩ := hr i (by simpa using hi)
      exact ⟨w, by simpa using hw1, by simpa using hw2⟩

theorem readAll_map {α β γ : Type} {f : α → Outcome β} {g : γ → α} {k : γ → β} : ∀ {l : List γ},
    (∀ x ∈ l, f (g x) = .ok (k x)) → readAll f (l.map g) = .ok (l.map k)
  | [], _ => rfl
  | x :: l, h => by
    have ih := readAll_map (l := l) fun y hy => h y (List.mem_cons_of_mem _ hy)
    simp [readAll, h x (by simp), ih]

theorem chunk_length {α : Type} (cols : Nat) : ∀ (rows : Nat) (l : List α), (chunk cols rows l).length = rows
  | 0, _ => rfl
  | r + 1, l => by simp [chunk, chunk_length cols r]

theorem chunk_rows {α : Type} (cols : Nat) : ∀ (rows : Nat) (l : List α), l.length = rows * cols →
    ∀ r ∈ chunk cols rows l, r.length = cols
  | 0, _, _ => by simp [chunk]
  | r + 1, l, h => by
    have h' : l.length = r * cols + cols := by rw [h, Nat.succ_mul]
    intro x hx
    simp only [chunk, List.mem_cons] at hx
    rcases hx with rfl | hx
    · rw [List.length_take]
      omega
    · exact chunk_rows cols r (l.drop cols) (by rw [List.length_drop]; omega) x hx

theorem chunk_entry {α : Type} (cols : Nat) : ∀ (rows : Nat) (l : List α) (i j : Nat), i < rows → j < cols →
    ((chunk cols rows l)[i]?.bind fun r => r[j]?) = l[i * cols + j]?
  | 0, _, _, _, h, _ => absurd h (Nat.not_lt_zero _)
  | r + 1, l, 0, j, _, hj => by simp [chunk, hj]
  | r + 1, l, i + 1, j, hi, hj => by
    have ih := chunk_entry cols r (l.drop cols) i j (by omega) hj
    simp only [chunk, List.getElem?_cons_succ]
    rw [ih, List.getElem?_drop]
    congr 1
    rw [Nat.succ_mul]
    omega

theorem chunk_singletons {α : Type} : ∀ (rows : Nat) (d : List (List α)), d.length = rows → (∀ r ∈ d, r.length = 1) →
    chunk 1 rows d.flatten = d
  | 0, d, h, _ => by
    rw [List.length_eq_zero_iff.1 h]
    rfl
  | r + 1, [], h, _ => by simp at h
  | r + 1, x :: d, h, hr => by
    obtain ⟨a, rfl⟩ : ∃ a, x = [a] := List.length_eq_one_iff.1 (hr x (by simp))
    have ih := chunk_singletons r d (by simpa using h) fun y hy => hr y (List.mem_cons_of_mem _ hy)
    simp [chunk, ih]

/-! ## C84 -/

theorem get_encoded (C : Codec) (m : Mat) (hr : 0 < m.rows) (hc : 0 < m.cols) :
    ∃ n, encode C m = .ok n ∧ n.isMap = true ∧ n.get "rows" = some (.scalar (C.intText m.rows)) ∧
      n.get "cols" = some (.scalar (C.intText m.cols)) ∧ n.get "data" = some (.seq (rowNodes C m)) := by
  refine ⟨_, by simp only [encode]; rw [if_pos ⟨hr, hc⟩], ?_⟩
  simp [Node.set, insert, Node.isMap, Node.get, find]

/-- C84: a matrix that is not empty and whose numbers survive as text comes back unchanged when it is written to YAML
and read as a matrix of the same type, whatever the type. -/
theorem matrix_round_trip (C : Codec) (sh : Shape) (m : Mat) (hw : m.Wf) (hs : sh.Holds m) (hr : 0 < m.rows)
    (hc : 0 < m.cols) (hr' : m.rows < 2 ^ 63) (hc' : m.cols < 2 ^ 63) (hx : ∀ r ∈ m.data, ∀ x ∈ r, C.Exact x) :
    ∃ n, encode C m = .ok n ∧ decode C sh n = .ok m := by
  obtain ⟨n, he, h1, h2, h3, h4⟩ := get_encoded C m hr hc
  refine ⟨n, he, ?_⟩
  have e1 : asScalar C.intRead (.scalar (C.intText m.rows)) = .ok (m.rows : Int) :=
    asScalar_ok.2 ⟨_, rfl, C.int_law _ (by omega) (by omega)⟩
  have e2 : asScalar C.intRead (.scalar (C.intText m.cols)) = .ok (m.cols : Int) :=
    asScalar_ok.2 ⟨_, rfl, C.int_law _ (by omega) (by omega)⟩
  have f1 : fits sh.rows (m.rows : Int) = true := by
    cases h : sh.rows with
    | none => rfl
    | some k => simpa [fits] using hs.1 k h
  have f2 : fits sh.cols (m.cols : Int) = true := by
    cases h : sh.cols with
    | none => rfl
    | some k => simpa [fits] using hs.2 k h
  have hp : (0 : Int) ≤ m.rows ∧ (0 : Int) ≤ m.cols := ⟨by omega, by omega⟩
  simp only [decode, h1, h2, h3, h4, asOf, e1, e2, f1, f2, Outcome.bind_ok, if_true, Bool.and_self, if_pos hp,
    Int.toNat_natCast]
  obtain ⟨hw1, hw2⟩ := hw
  simp only [decodeData]
  rw [if_neg (by omega)]
  by_cases h1c : 1 < m.cols
  · have hl : (rowNodes C m).length = m.rows := by simp [rowNodes, h1c, hw1]
    have hne : m.rows ≠ m.rows * m.cols := by
      intro e
      have : m.rows * 1 < m.rows * m.cols := Nat.mul_lt_mul_of_pos_left h1c hr
      omega
    rw [hl, if_neg hne, if_pos rfl]
    have : readAll (rowElem C m.cols) (rowNodes C m) = .ok m.data := by
      rw [rowNodes, if_pos h1c]
      have := readAll_map (f := rowElem C m.cols) (k := id) (l := m.data)
        (g := fun r => Node.seq (r.map fun x => .scalar (C.numText x))) fun r hrr => by
          simp only [rowElem, List.length_map, hw2 r hrr, if_true, id]
          have := readAll_map (f := asScalar C.numRead) (g := fun x => Node.scalar (C.numText x)) (k := id) (l := r)
            fun x hxx => asScalar_ok.2 ⟨_, rfl, hx r hrr x hxx⟩
          simpa using this
      simpa using this
    rw [this]
    rfl
  · have hc1 : m.cols = 1 := by omega
    have hl : (rowNodes C m).length = m.rows * m.cols := by simp [rowNodes, hc1, hw1]
    rw [if_pos hl]
    have : readAll (linearElem C) (rowNodes C m) = .ok m.data.flatten := by
      rw [rowNodes, if_neg h1c]
      have h0 := readAll_map (f := linearElem C) (k := fun r : List ℚ => r.headD 0) (l := m.data)
        (g := fun r => Node.scalar (C.numText (r.headD 0))) fun r hrr => by
          obtain ⟨a, rfl⟩ : ∃ a, r = [a] := List.length_eq_one_iff.1 (by rw [hw2 r hrr, hc1])
          exact asScalar_ok.2 ⟨_, rfl, hx _ hrr a (by simp)⟩
      rw [h0]
      congr 1
      have : ∀ d : List (List ℚ), (∀ r ∈ d, r.length = 1) → d.map (fun r => r.headD 0) = d.flatten := by
        intro d
        induction d with
        | nil => intro _; rfl
        | cons r d ih =>
          intro hd
          obtain ⟨a, rfl⟩ : ∃ a, r = [a] := List.length_eq_one_iff.1 (hd r (by simp))
          rw [List.map_cons, ih fun y hy => hd y (List.mem_cons_of_mem _ hy)]
          rfl
      exact this _ fun r hrr => by rw [hw2 r hrr, hc1]
    rw [this]
    simp only [Outcome.bind_ok, hc1]
    rw [chunk_singletons m.rows m.data hw1 fun r hrr => by rw [hw2 r hrr, hc1]]
    cases m
    simp_all

/-- A matrix with two rows and three columns, read as a matrix of dynamic size. -/
example : ∃ n, encode words ⟨2, 3, [[1, 2, 3], [4, 5, 1/2]]⟩ = .ok n ∧
    decode words ⟨none, none⟩ n = .ok ⟨2, 3, [[1, 2, 3], [4, 5, 1/2]]⟩ :=
  matrix_round_trip words ⟨none, none⟩ _ ⟨rfl, by simp⟩ ⟨by simp, by simp⟩ (by decide) (by decide) (by decide)
    (by decide) fun _ _ x _ => words_exact x

/-- Not every matrix can be written: an empty one ends the program. -/
theorem encode_empty_refuted (C : Codec) : encode C (Mat.col []) = .abort := by
  simp [encode, Mat.col]

/-- An empty matrix, and no other, ends the program when it is written. -/
theorem encode_aborts (C : Codec) (m : Mat) : encode C m = .abort ↔ m.rows = 0 ∨ m.cols = 0 := by
  simp only [encode]
  split
  · rename_i h
    simp
    omega
  · rename_i h
    simp
    omega

example : encode words (Mat.col [3]) ≠ .abort := by
  rw [Ne, encode_aborts]
  simp [Mat.col]

/-- C84: a matrix that is read has the dimensions that stand in the node, these fit its type, and it is complete. -/
theorem decoded_shape {C : Codec} {sh : Shape} {n : Node} {m : Mat} (h : decode C sh n = .ok m) :
    m.Wf ∧ sh.Holds m ∧
      (∃ s, n.get "rows" = some (.scalar s) ∧ C.intRead s = some (m.rows : Int)) ∧
      (∃ s, n.get "cols" = some (.scalar s) ∧ C.intRead s = some (m.cols : Int)) ∧
      ∃ l, n.get "data" = some (.seq l) ∧ (m.rows = 0 ∧ m.cols = 0 ∨ l.length = m.rows * m.cols ∨ l.length = m.rows) := by
  unfold decode at h
  split at h
  case isFalse => cases h
  obtain ⟨rows, hr, h⟩ := Outcome.bind_eq_ok.1 h
  obtain ⟨cols, hc, h⟩ := Outcome.bind_eq_ok.1 h
  split at h
  case isFalse => cases h
  rename_i hf
  split at h
  case isFalse => cases h
  rename_i hp
  obtain ⟨a, rfl⟩ := Int.eq_ofNat_of_zero_le hp.1
  obtain ⟨b, rfl⟩ := Int.eq_ofNat_of_zero_le hp.2
  simp only [Int.toNat_natCast] at h
  have hdims : m.rows = a ∧ m.cols = b ∧ m.Wf ∧
      ∃ l, n.get "data" = some (.seq l) ∧ (a = 0 ∧ b = 0 ∨ l.length = a * b ∨ l.length = a) := by
    unfold decodeData at h
    split at h
    case h_2 => cases h
    rename_i l hl
    split at h
    · rename_i h0
      injection h with h
      subst h
      exact ⟨h0.1.symm, h0.2.symm, ⟨rfl, by simp⟩, l, hl, Or.inl h0⟩
    · split at h
      · rename_i hlen
        obtain ⟨vs, h1, h2⟩ := Outcome.bind_eq_ok.1 h
        injection h2 with h2
        subst h2
        refine ⟨rfl, rfl, ⟨chunk_length _ _ _, chunk_rows _ _ _ ?_⟩, l, hl, Or.inr (Or.inl hlen)⟩
        rw [(readAll_ok h1).1, hlen]
      · split at h
        · rename_i hlen
          obtain ⟨d, h1, h2⟩ := Outcome.bind_eq_ok.1 h
          injection h2 with h2
          subst h2
          obtain ⟨g1, g2⟩ := readAll_ok h1
          refine ⟨rfl, rfl, ⟨by simp [g1, hlen], fun r hr => ?_⟩, l, hl, Or.inr (Or.inr hlen)⟩
          obtain ⟨i, hi, rfl⟩ := List.getElem_of_mem hr
          simp only at hi
          obtain ⟨v, hv, hf⟩ := g2 i (by omega)
          rw [List.getElem?_eq_getElem hi] at hv
          injection hv with hv
          rw [hv]
          unfold rowElem at hf
          split at hf
          · split at hf
            · rename_i hlen'
              rw [(readAll_ok hf).1, hlen']
            · cases hf
          · split at hf
            · rename_i hb
              obtain ⟨w, -, hw⟩ := Outcome.bind_eq_ok.1 hf
              injection hw with hw
              rw [← hw, hb]
              rfl
            · cases hf
        · cases h
  obtain ⟨ha, hb, hw, l, hl, hlen⟩ := hdims
  rw [Bool.and_eq_true] at hf
  have get : ∀ {o : Option Node} {v : Int}, asOf (asScalar C.intRead) o = .ok v →
      ∃ s, o = some (.scalar s) ∧ C.intRead s = some v := by
    intro o v e
    cases o with
    | none => cases e
    | some x =>
      obtain ⟨s, h1, h2⟩ := asScalar_ok.1 e
      exact ⟨s, by rw [h1], h2⟩
  refine ⟨hw, ⟨fun k hk => ?_, fun k hk => ?_⟩, ?_, ?_, l, hl, ?_⟩
  · have := hf.1
    rw [Option.mem_def.1 hk] at this
    simp only [fits, decide_eq_true_eq] at this
    omega
  · have := hf.2
    rw [Option.mem_def.1 hk] at this
    simp only [fits, decide_eq_true_eq] at this
    omega
  · rw [ha]; exact get hr
  · rw [hb]; exact get hc
  · rw [ha, hb]; exact hlen

/-- A node for a matrix. -/
def nodeOf (C : Codec) (rows cols : Nat) (data : List Node) : Node :=
  .map [("rows", .scalar (C.intText rows)), ("cols", .scalar (C.intText cols)), ("data", .seq data)]

theorem decode_nodeOf (C : Codec) (sh : Shape) {rows cols : Nat} (hr : rows < 2 ^ 63) (hc : cols < 2 ^ 63)
    (hs : (∀ k ∈ sh.rows, rows = k) ∧ ∀ k ∈ sh.cols, cols = k) (data : List Node) :
    decode C sh (nodeOf C rows cols data) = decodeData C rows cols (some (.seq data)) := by
  have e1 : asScalar C.intRead (.scalar (C.intText rows)) = .ok (rows : Int) :=
    asScalar_ok.2 ⟨_, rfl, C.int_law _ (by omega) (by omega)⟩
  have e2 : asScalar C.intRead (.scalar (C.intText cols)) = .ok (cols : Int) :=
    asScalar_ok.2 ⟨_, rfl, C.int_law _ (by omega) (by omega)⟩
  have f1 : fits sh.rows (rows : Int) = true := by
    cases h : sh.rows with
    | none => rfl
    | some k => simpa [fits] using hs.1 k h
  have f2 : fits sh.cols (cols : Int) = true := by
    cases h : sh.cols with
    | none => rfl
    | some k => simpa [fits] using hs.2 k h
  have hp : (0 : Int) ≤ rows ∧ (0 : Int) ≤ cols := ⟨by omega, by omega⟩
  have g : (nodeOf C rows cols data).isMap = true ∧
      (nodeOf C rows cols data).get "rows" = some (.scalar (C.intText rows)) ∧
      (nodeOf C rows cols data).get "cols" = some (.scalar (C.intText cols)) ∧
      (nodeOf C rows cols data).get "data" = some (.seq data) := by
    simp [nodeOf, Node.isMap, Node.get, find]
  simp only [decode, g, asOf, e1, e2, f1, f2, Outcome.bind_ok, if_true, Bool.and_self, if_pos hp,
    Int.toNat_natCast]

/-- C84: numbers listed one after the other are taken row by row. -/
theorem decode_linear (C : Codec) (sh : Shape) {rows cols : Nat} (hr : rows < 2 ^ 63) (hc : cols < 2 ^ 63)
    (hs : (∀ k ∈ sh.rows, rows = k) ∧ ∀ k ∈ sh.cols, cols = k) (h0 : ¬(rows = 0 ∧ cols = 0)) {data : List Node}
    {xs : List ℚ} (hl : data.length = rows * cols) (hx : xs.length = data.length)
    (hd : ∀ i (h : i < data.length) x, xs[i]? = some x → Number C data[i] x) :
    ∃ m, decode C sh (nodeOf C rows cols data) = .ok m ∧ m.Wf ∧ m.rows = rows ∧ m.cols = cols ∧
      ∀ i j, i < rows → j < cols → m.entry i j = xs[i * cols + j]? := by
  have key : readAll (linearElem C) data = .ok xs := by
    clear hl
    induction data generalizing xs with
    | nil =>
      have : xs = [] := List.length_eq_zero_iff.1 (by simpa using hx)
      rw [this]
      rfl
    | cons d ds ih =>
      cases xs with
      | nil => simp at hx
      | cons x xs =>
        obtain ⟨s, hs1, hs2⟩ := hd 0 (by simp) x rfl
        simp only [List.getElem_cons_zero] at hs1
        have : linearElem C d = .ok x := by
          rw [hs1]
          exact asScalar_ok.2 ⟨s, rfl, hs2⟩
        simp only [readAll, this, Outcome.bind_ok]
        rw [ih (xs := xs) (by simpa using hx) fun i hi y hy =>
          hd (i + 1) (by simpa using hi) y (by simpa using hy)]
        rfl
  refine ⟨⟨rows, cols, chunk cols rows xs⟩, ?_, ⟨chunk_length _ _ _, chunk_rows _ _ _ (by rw [hx, hl])⟩, rfl, rfl,
    fun i j hi hj => chunk_entry cols rows xs i j hi hj⟩
  rw [decode_nodeOf C sh hr hc hs]
  simp only [decodeData]
  rw [if_neg h0, if_pos hl, key]
  rfl

/-- A matrix of two rows given as four numbers one after the other. -/
example : ∃ m, decode words ⟨none, none⟩ (nodeOf words 2 2 ([1, 2, 3, 4].map fun x => .scalar (words.numText x))) = .ok m ∧
    m.entry 1 0 = some 3 := by
  obtain ⟨m, h, -, -, -, he⟩ := decode_linear words ⟨none, none⟩ (rows := 2) (cols := 2) (by decide) (by decide)
    ⟨by simp, by simp⟩ (by decide) (data := [1, 2, 3, 4].map fun x => .scalar (words.numText x)) (xs := [1, 2, 3, 4]) rfl rfl
    (fun i hi x hx => ⟨words.numText x, by
      simp only [List.length_map] at hi
      rw [List.getElem_map]
      rw [List.getElem?_eq_getElem hi] at hx
      injection hx with hx
      rw [hx], words_exact x⟩)
  exact ⟨m, h, by rw [he 1 0 (by decide) (by decide)]; rfl⟩

/-- C84: a list of the wrong length is not accepted. -/
theorem decode_wrong_length (C : Codec) (sh : Shape) {rows cols : Nat} (hr : rows < 2 ^ 63) (hc : cols < 2 ^ 63)
    (hs : (∀ k ∈ sh.rows, rows = k) ∧ ∀ k ∈ sh.cols, cols = k) (h0 : ¬(rows = 0 ∧ cols = 0)) {data : List Node}
    (h1 : data.length ≠ rows * cols) (h2 : data.length ≠ rows) :
    decode C sh (nodeOf C rows cols data) = .exc := by
  rw [decode_nodeOf C sh hr hc hs]
  simp only [decodeData]
  rw [if_neg h0, if_neg h1, if_neg h2]

example : decode words Shape.vector (nodeOf words 3 1 [.null, .null]) = .exc :=
  decode_wrong_length words Shape.vector (by decide) (by decide) ⟨by simp [Shape.vector], by simp [Shape.vector]⟩
    (by decide) (by decide) (by decide)

/-- C84: a node that is not a map, or does not say how many rows and columns there are, is not accepted. -/
theorem decode_no_size (C : Codec) (sh : Shape) (n : Node)
    (h : n.isMap = false ∨ n.get "rows" = none ∨
      ((∃ r, n.get "rows" = some (.scalar (C.intText r)) ∧ -2 ^ 63 ≤ r ∧ r < 2 ^ 63) ∧ n.get "cols" = none)) :
    decode C sh n = .exc := by
  unfold decode
  cases hm : n.isMap with
  | false => rfl
  | true =>
    rcases h with h | h | ⟨⟨r, h, h1, h2⟩, h'⟩
    · rw [hm] at h; cases h
    · rw [h]; rfl
    · have e : asScalar C.intRead (.scalar (C.intText r)) = .ok r :=
        asScalar_ok.2 ⟨_, rfl, C.int_law _ h1 h2⟩
      rw [h, h']
      simp only [asOf, e]
      rfl

example : decode words Shape.vector (.map [("rows", .scalar (words.intText 2))]) = .exc :=
  decode_no_size words Shape.vector _ (.inr (.inr ⟨⟨2, by simp [Node.get, find], by decide, by decide⟩, by simp [Node.get, find]⟩))

/-- A matrix whose type has other dimensions is not accepted. -/
theorem decode_wrong_type (C : Codec) (sh : Shape) {rows cols : Nat} (hr : rows < 2 ^ 63) (hc : cols < 2 ^ 63)
    (hs : (∃ k ∈ sh.rows, rows ≠ k) ∨ ∃ k ∈ sh.cols, cols ≠ k) (data : List Node) :
    decode C sh (nodeOf C rows cols data) = .exc := by
  have e1 : asScalar C.intRead (.scalar (C.intText rows)) = .ok (rows : Int) :=
    asScalar_ok.2 ⟨_, rfl, C.int_law _ (by omega) (by omega)⟩
  have e2 : asScalar C.intRead (.scalar (C.intText cols)) = .ok (cols : Int) :=
    asScalar_ok.2 ⟨_, rfl, C.int_law _ (by omega) (by omega)⟩
  have g : (nodeOf C rows cols data).isMap = true ∧
      (nodeOf C rows cols data).get "rows" = some (.scalar (C.intText rows)) ∧
      (nodeOf C rows cols data).get "cols" = some (.scalar (C.intText cols)) := by
    simp [nodeOf, Node.isMap, Node.get, find]
  have f : (fits sh.rows (rows : Int) && fits sh.cols (cols : Int)) = false := by
    rw [Bool.and_eq_false_iff]
    rcases hs with ⟨k, hk, hne⟩ | ⟨k, hk, hne⟩
    · left
      rw [Option.mem_def.1 hk]
      simp only [fits, decide_eq_false_iff_not]
      omega
    · right
      rw [Option.mem_def.1 hk]
      simp only [fits, decide_eq_false_iff_not]
      omega
  simp only [decode, g, asOf, e1, e2, f, Outcome.bind_ok, if_true]
  rfl

example : decode words (Shape.square 4) (nodeOf words 3 4 []) = .exc :=
  decode_wrong_type words (Shape.square 4) (by decide) (by decide) (Or.inl ⟨4, rfl, by decide⟩) []

/-- A number written as text, as a node. -/
def num (C : Codec) (x : ℚ) : Node := .scalar (C.numText x)

/-- Rows that are too long are not noticed: for a column vector the surplus of each row is dropped. -/
theorem decode_long_rows_refuted (C : Codec) (h1 : C.Exact 1) (h2 : C.Exact 2) :
    decode C Shape.vector (nodeOf C 2 1 [.seq [num C 1, num C 7], .seq [num C 2, num C 8]]) = .ok (Mat.col [1, 2]) := by
  have e1 : asScalar C.numRead (num C 1) = .ok 1 := asScalar_ok.2 ⟨_, rfl, h1⟩
  have e2 : asScalar C.numRead (num C 2) = .ok 2 := asScalar_ok.2 ⟨_, rfl, h2⟩
  rw [decode_nodeOf C Shape.vector (by decide) (by decide) ⟨by simp [Shape.vector], by simp [Shape.vector]⟩]
  simp [decodeData, readAll, linearElem, e1, e2, chunk, Mat.col]

/-- Rows of the right length are not accepted: a column vector given as rows of one number each ends the program. -/
theorem decode_column_rows_refuted (C : Codec) :
    decode C Shape.vector (nodeOf C 2 1 [.seq [num C 1], .seq [num C 2]]) = .abort := by
  rw [decode_nodeOf C Shape.vector (by decide) (by decide) ⟨by simp [Shape.vector], by simp [Shape.vector]⟩]
  simp [decodeData, readAll, linearElem]

/-- A row that is too short ends the program instead of being refused. -/
theorem decode_short_row_refuted (C : Codec) :
    decode C (Shape.square 2) (nodeOf C 2 2 [.seq [num C 1], .seq [num C 2, num C 3]]) = .abort := by
  rw [decode_nodeOf C (Shape.square 2) (by decide) (by decide) ⟨by simp [Shape.square], by simp [Shape.square]⟩]
  simp [decodeData, readAll, rowElem]

/-- If there are neither rows nor columns, data are dropped. -/
theorem decode_zero_refuted (C : Codec) (data : List Node) :
    decode C ⟨none, none⟩ (nodeOf C 0 0 data) = .ok ⟨0, 0, []⟩ := by
  rw [decode_nodeOf C ⟨none, none⟩ (by decide) (by decide) ⟨by simp, by simp⟩]
  simp [decodeData]

/-- C84 in part: a matrix of at least two columns given as rows.  Each row has the right length, or the program ends;
the entries are those of the rows. -/
theorem decode_rows_partial (C : Codec) (sh : Shape) {rows cols : Nat} (hr : rows < 2 ^ 63) (hc : cols < 2 ^ 63)
    (hs : (∀ k ∈ sh.rows, rows = k) ∧ ∀ k ∈ sh.cols, cols = k) (h2 : 2 ≤ cols) (hpos : 0 < rows)
    {data : List (List Node)} (hl : data.length = rows) {m : Mat}
    (h : decode C sh (nodeOf C rows cols (data.map Node.seq)) = .ok m) :
    ∀ (i : Nat) (r : List Node), data[i]? = some r → r.length = cols ∧
      ∀ (j : Nat) (e : Node), r[j]? = some e → ∃ x, Number C e x ∧ m.entry i j = some x := by
  rw [decode_nodeOf C sh hr hc hs] at h
  have hne : rows ≠ rows * cols := by
    intro e
    have : rows * 1 < rows * cols := Nat.mul_lt_mul_of_pos_left h2 hpos
    omega
  simp only [decodeData] at h
  rw [List.length_map, hl, if_neg (by omega), if_neg hne, if_pos rfl] at h
  obtain ⟨d, h1, h2⟩ := Outcome.bind_eq_ok.1 h
  injection h2 with h2
  subst h2
  obtain ⟨g1, g2⟩ := readAll_ok h1
  intro i r hir
  obtain ⟨hi, rfl⟩ := List.getElem?_eq_some_iff.1 hir
  obtain ⟨v, hv, hf⟩ := g2 i (by simpa using hi)
  rw [List.getElem_map] at hf
  simp only [rowElem] at hf
  split at hf
  case isFalse => cases hf
  rename_i hlen
  refine ⟨hlen, fun j e hje => ?_⟩
  obtain ⟨hj, rfl⟩ := List.getElem?_eq_some_iff.1 hje
  obtain ⟨x, hx, hfx⟩ := (readAll_ok hf).2 j hj
  exact ⟨x, asScalar_ok.1 hfx, by simp only [Mat.entry]; rw [hv]; exact hx⟩

/-- A matrix with two rows and three columns. -/
example : ∃ m, decode words ⟨none, none⟩ (nodeOf words 1 2 ([[num words 5, num words 6]].map Node.seq)) = .ok m ∧
    m.entry 0 1 = some 6 := by
  have e1 : asScalar words.numRead (num words 5) = .ok 5 := asScalar_ok.2 ⟨_, rfl, words_exact 5⟩
  have e2 : asScalar words.numRead (num words 6) = .ok 6 := asScalar_ok.2 ⟨_, rfl, words_exact 6⟩
  refine ⟨⟨1, 2, [[5, 6]]⟩, ?_, rfl⟩
  rw [decode_nodeOf words ⟨none, none⟩ (by decide) (by decide) ⟨by simp, by simp⟩]
  simp [decodeData, readAll, rowElem, e1, e2]

end Verif.Yaml
