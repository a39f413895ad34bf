import Verif.Target.File
import Verif.Target.Props
import Verif.Yaml.Props

/-!
# Property C136: targets described by files
-/

namespace Verif.Target

open Verif (Outcome)
open Verif.Yaml (Node Codec safeGet asScalar asString safeGet_spec)

theorem checkPos_of {α : Type} [Zero α] [LT α] [DecidableLT α] {x : α} (h : 0 < x) : checkPos x = .ok () := if_pos h

theorem checkPos_not {α : Type} [Zero α] [LT α] [DecidableLT α] {x : α} (h : ¬ 0 < x) : checkPos x = .abort := if_neg h

/-- Specification: the text under a key of a file. -/
def Says (n : Node) (key text : String) : Prop := n.get key = some (.scalar text)

/-- Specification: the file says so, in a way that can be read as a number of a type. -/
def Gives {α : Type} (read : String → Option α) (n : Node) (key : String) (v : α) : Prop :=
  ∃ s, Says n key s ∧ read s = some v

theorem gives_unique {α : Type} {read : String → Option α} {n : Node} {key : String} {v w : α} (h : Gives read n key v)
    (h' : Gives read n key w) : v = w := by
  obtain ⟨s, a, b⟩ := h
  obtain ⟨t, c, d⟩ := h'
  have := a.symm.trans c
  simp only [Option.some.injEq, Node.scalar.injEq] at this
  subst this
  exact Option.some.inj (b.symm.trans d)

theorem get_cases {α : Type} (n : Node) (key : String) (read : String → Option α) :
    (∃ v, Gives read n key v ∧ safeGet n key (asScalar read) = .ok (some v)) ∨
      ((∀ v, ¬ Gives read n key v) ∧ safeGet n key (asScalar read) = .ok none) := by
  obtain ⟨h1, h2⟩ := safeGet_spec n key read
  by_cases h : ∃ v, Gives read n key v
  · obtain ⟨v, hv⟩ := h
    exact .inl ⟨v, hv, (h1 v).2 hv⟩
  · have hn : ∀ v, ¬ Gives read n key v := fun v hv => h ⟨v, hv⟩
    exact .inr ⟨hn, h2 fun v e => hn v ((h1 v).1 e)⟩

/-- Specification: what is taken under a key: what the file gives, or else a value that does not come from the file. -/
def Taken {α : Type} (read : String → Option α) (n : Node) (key : String) (other v : α) : Prop :=
  Gives read n key v ∨ (∀ w, ¬ Gives read n key w) ∧ v = other

theorem taken_cases {α : Type} (n : Node) (key : String) (read : String → Option α) (other : α) :
    ∃ o, safeGet n key (asScalar read) = .ok o ∧ ∀ v, Taken read n key other v ↔ v = o.getD other := by
  rcases get_cases n key read with ⟨v, hv, e⟩ | ⟨hn, e⟩
  · refine ⟨some v, e, fun w => ⟨?_, ?_⟩⟩
    · rintro (h | h)
      · exact gives_unique h hv
      · exact absurd hv (h.1 v)
    · rintro rfl
      exact .inl hv
  · refine ⟨none, e, fun w => ⟨?_, ?_⟩⟩
    · rintro (h | h)
      · exact absurd h (hn w)
      · exact h.2
    · rintro rfl
      exact .inr ⟨hn, rfl⟩

/-- **C136: a board is read from exactly the files of type aprilgrid that give a spacing**, with positive values; the spacing
between the tags is given in units of their size.  Rows, columns and size that the file does not give are those of the board
of 6 by 6 tags of 88 mm. -/
theorem fromYaml_ok_iff (C : Codec) (file : Option Node) (b : FileConfig) :
    fromYaml C file = .ok b ↔ ∃ n, file = some n ∧ Says n "target_type" "aprilgrid" ∧
      Taken (C.natRead 64) n "tagRows" 6 b.grid.tagRows ∧ Taken (C.natRead 64) n "tagCols" 6 b.grid.tagCols ∧
      Taken C.numRead n "tagSize" (88 / 1000) b.grid.tagSize ∧
      (∃ s, Gives C.numRead n "tagSpacing" s ∧ b.grid.spacing = s * b.grid.tagSize) ∧
      0 < b.grid.tagRows ∧ 0 < b.grid.tagCols ∧ 0 < b.grid.tagSize ∧ 0 < b.grid.spacing ∧ b.borderBits = 2 := by
  cases file with
  | none => simp [fromYaml]
  | some n =>
    simp only [fromYaml, Option.some.injEq, exists_eq_left']
    obtain ⟨oc, ec, hc⟩ := taken_cases n "tagCols" (C.natRead 64) 6
    obtain ⟨orr, er, hr⟩ := taken_cases n "tagRows" (C.natRead 64) 6
    obtain ⟨os, es, hs⟩ := taken_cases n "tagSize" C.numRead (88 / 1000)
    obtain ⟨⟨rows, cols, size, spacing⟩, bits⟩ := b
    simp only [hc, hr, hs]
    have ty : (∃ t, safeGet n "target_type" asString = .ok t ∧ (t.getD "" = "aprilgrid" ↔ Says n "target_type" "aprilgrid")) := by
      rcases get_cases n "target_type" (some : String → Option String) with ⟨v, ⟨s, hv, hs⟩, e⟩ | ⟨hn, e⟩
      · refine ⟨some v, e, ?_⟩
        cases hs
        constructor
        · intro h
          simp only [Option.getD_some] at h
          exact h ▸ hv
        · intro h
          have := hv.symm.trans h
          simp only [Option.some.injEq, Node.scalar.injEq] at this
          exact this
      · refine ⟨none, e, by simp, fun h => absurd ⟨_, h, rfl⟩ (hn "aprilgrid")⟩
    obtain ⟨t, et, ht⟩ := ty
    unfold boardOfNode
    rw [et, Outcome.bind_ok]
    by_cases h0 : t.getD "" = "aprilgrid"
    · rw [if_neg (not_not.2 h0), ec, Outcome.bind_ok]
      have h0' := ht.1 h0
      simp only [h0', true_and, defaultBoard]
      by_cases h1 : 0 < oc.getD 6
      · rw [checkPos_of h1, Outcome.bind_ok, er, Outcome.bind_ok]
        by_cases h2 : 0 < orr.getD 6
        · rw [checkPos_of h2, Outcome.bind_ok, es, Outcome.bind_ok]
          by_cases h3 : 0 < os.getD (88 / 1000)
          · rw [checkPos_of h3, Outcome.bind_ok]
            rcases get_cases n "tagSpacing" C.numRead with ⟨v, hv, e⟩ | ⟨hn, e⟩
            · rw [e, Outcome.bind_ok]
              simp only
              by_cases h4 : 0 < v * os.getD (88 / 1000)
              · rw [checkPos_of h4, Outcome.bind_ok]
                simp only [Outcome.ok.injEq, FileConfig.mk.injEq, Config.mk.injEq]
                constructor
                · rintro ⟨⟨rfl, rfl, rfl, rfl⟩, rfl⟩
                  exact ⟨rfl, rfl, rfl, ⟨v, hv, rfl⟩, h2, h1, h3, h4, rfl⟩
                · rintro ⟨rfl, rfl, rfl, ⟨w, hw, rfl⟩, -, -, -, -, rfl⟩
                  rw [gives_unique hw hv]
                  exact ⟨⟨rfl, rfl, rfl, rfl⟩, rfl⟩
              · rw [checkPos_not h4]
                simp only [Outcome.bind_abort, reduceCtorEq, false_iff]
                rintro ⟨rfl, rfl, rfl, ⟨w, hw, rfl⟩, -, -, -, h, -⟩
                rw [gives_unique hw hv] at h
                exact h4 h
            · rw [e, Outcome.bind_ok]
              simp only [reduceCtorEq, false_iff]
              rintro ⟨-, -, -, ⟨w, hw, -⟩, -⟩
              exact hn w hw
          · rw [checkPos_not h3]
            simp only [Outcome.bind_abort, reduceCtorEq, false_iff]
            rintro ⟨-, -, rfl, -, -, -, h, -⟩
            exact h3 h
        · rw [checkPos_not h2]
          simp only [Outcome.bind_abort, reduceCtorEq, false_iff]
          rintro ⟨rfl, -, -, -, h, -⟩
          exact h2 h
      · rw [checkPos_not h1]
        simp only [Outcome.bind_abort, reduceCtorEq, false_iff]
        rintro ⟨-, rfl, -, -, -, h, -⟩
        exact h1 h
    · rw [if_pos h0]
      simp only [reduceCtorEq, false_iff]
      rintro ⟨h, -⟩
      exact h0 (ht.2 h)

/-- Specification: the file of a board, with its spacing in units of the size of a tag. -/
def fileOf (C : Codec) (c : Config) : Node :=
  .map [("target_type", .scalar "aprilgrid"), ("tagCols", .scalar (C.natText c.tagCols)),
    ("tagRows", .scalar (C.natText c.tagRows)), ("tagSize", .scalar (C.numText c.tagSize)),
    ("tagSpacing", .scalar (C.numText (c.spacing / c.tagSize)))]

/-- **C136: a board that is written to a file is the one that is read from it.** -/
theorem file_round_trip (C : Codec) {c : Config} (hc : Board c) (hr : c.tagRows < 2 ^ 64) (hk : c.tagCols < 2 ^ 64)
    (h1 : C.Exact c.tagSize) (h2 : C.Exact (c.spacing / c.tagSize)) : fromYaml C (some (fileOf C c)) = .ok ⟨c, 2⟩ := by
  rw [fromYaml_ok_iff]
  refine ⟨_, rfl, rfl, .inl ⟨_, rfl, C.nat_law 64 _ hr⟩, .inl ⟨_, rfl, C.nat_law 64 _ hk⟩, .inl ⟨_, rfl, h1⟩,
    ⟨_, ⟨_, rfl, h2⟩, ?_⟩, hc.rows, hc.cols, hc.size, hc.spacing, rfl⟩
  have := hc.size.ne'
  field_simp

/-- **C136: a target can be made from what was read from a file.** -/
theorem file_makes_target {C : Codec} {file : Option Node} {b : FileConfig} (h : fromYaml C file = .ok b) :
    ∃ t, newAprilGrid b.grid = .ok t ∧ t.rows = 2 * b.grid.tagRows ∧ t.cols = 2 * b.grid.tagCols := by
  obtain ⟨n, -, -, -, -, -, -, h1, h2, h3, h4, -⟩ := (fromYaml_ok_iff C file b).1 h
  obtain ⟨t, ht⟩ := (newAprilGrid_ok_iff b.grid).2 ⟨h1, h2, h3, h4⟩
  obtain ⟨a, b, -⟩ := newAprilGrid_spec ht
  exact ⟨t, ht, a, b⟩

/-- **C136: files that are not there, are not YAML, or are of another type end the program.** -/
theorem file_rejected (C : Codec) (file : Option Node) (h : ∀ n, file = some n → ¬ Says n "target_type" "aprilgrid") :
    fromYaml C file = .abort := by
  cases file with
  | none => rfl
  | some n =>
    have hn := h n rfl
    show boardOfNode C n = .abort
    unfold boardOfNode
    rcases get_cases n "target_type" (some : String → Option String) with ⟨v, ⟨s, hv, hs⟩, e⟩ | ⟨-, e⟩
    · cases hs
      rw [asString, e, Outcome.bind_ok, if_pos]
      intro h
      simp only [Option.getD_some] at h
      subst h
      exact hn hv
    · rw [asString, e, Outcome.bind_ok, if_pos (by decide)]

/-- **C136 (refuted): a file without the spacing is not rejected**: what the spacing was before, nothing, is used. -/
theorem missing_spacing_refuted (C : Codec) {n : Node} (ht : Says n "target_type" "aprilgrid") {r k : Nat} {s : ℚ}
    (hr : Gives (C.natRead 64) n "tagRows" r) (hk : Gives (C.natRead 64) n "tagCols" k) (hs : Gives C.numRead n "tagSize" s)
    (hr0 : 0 < r) (hk0 : 0 < k) (hs0 : 0 < s) (hm : ∀ v, ¬ Gives C.numRead n "tagSpacing" v) :
    fromYaml C (some n) = .ub := by
  show boardOfNode C n = .ub
  have et : safeGet n "target_type" asString = .ok (some "aprilgrid") :=
    ((safeGet_spec n "target_type" (some : String → Option String)).1 _).2 ⟨_, ht, rfl⟩
  unfold boardOfNode
  rw [et, Outcome.bind_ok, if_neg (by decide), ((safeGet_spec n "tagCols" (C.natRead 64)).1 _).2 hk, Outcome.bind_ok]
  simp only [Option.getD_some]
  rw [checkPos_of hk0, Outcome.bind_ok, ((safeGet_spec n "tagRows" (C.natRead 64)).1 _).2 hr, Outcome.bind_ok]
  simp only [Option.getD_some]
  rw [checkPos_of hr0, Outcome.bind_ok, ((safeGet_spec n "tagSize" C.numRead).1 _).2 hs, Outcome.bind_ok]
  simp only [Option.getD_some]
  rw [checkPos_of hs0, Outcome.bind_ok]
  rcases get_cases n "tagSpacing" C.numRead with ⟨v, hv, -⟩ | ⟨-, e⟩
  · exact absurd hv (hm v)
  · rw [e, Outcome.bind_ok]

/-- **C136 (refuted): a file without the number of columns is not rejected**, nor one in which it cannot be read: the board has
six. -/
theorem missing_columns_refuted (C : Codec) {n : Node} (ht : Says n "target_type" "aprilgrid") {r : Nat} {s v : ℚ}
    (hr : Gives (C.natRead 64) n "tagRows" r) (hs : Gives C.numRead n "tagSize" s) (hv : Gives C.numRead n "tagSpacing" v)
    (hr0 : 0 < r) (hs0 : 0 < s) (hv0 : 0 < v) (hm : ∀ k, ¬ Gives (C.natRead 64) n "tagCols" k) :
    fromYaml C (some n) = .ok ⟨⟨r, 6, s, v * s⟩, 2⟩ :=
  (fromYaml_ok_iff C _ _).2 ⟨n, rfl, ht, .inl hr, .inr ⟨hm, rfl⟩, .inl hs, ⟨v, hv, rfl⟩, hr0, by norm_num, hs0,
    mul_pos hv0 hs0, rfl⟩

/-- **C136 (refuted): nor is one in which the size of a tag has a wrong key or a unit**: the tags have 88 mm. -/
theorem missing_size_refuted (C : Codec) {n : Node} (ht : Says n "target_type" "aprilgrid") {r k : Nat} {v : ℚ}
    (hr : Gives (C.natRead 64) n "tagRows" r) (hk : Gives (C.natRead 64) n "tagCols" k) (hv : Gives C.numRead n "tagSpacing" v)
    (hr0 : 0 < r) (hk0 : 0 < k) (hv0 : 0 < v) (hm : ∀ s, ¬ Gives C.numRead n "tagSize" s) :
    fromYaml C (some n) = .ok ⟨⟨r, k, 88 / 1000, v * (88 / 1000)⟩, 2⟩ :=
  (fromYaml_ok_iff C _ _).2 ⟨n, rfl, ht, .inl hr, .inl hk, .inr ⟨hm, rfl⟩, ⟨v, hv, rfl⟩, hr0, hk0, by norm_num,
    mul_pos hv0 (by norm_num), rfl⟩

/-- **C136 (refuted): the border of the tags is not read**: what the file says about it does not matter. -/
theorem border_refuted (C : Codec) {file : Option Node} {b : FileConfig} (h : fromYaml C file = .ok b) : b.borderBits = 2 :=
  let ⟨_, _, _, _, _, _, _, _, _, _, _, h⟩ := (fromYaml_ok_iff C file b).1 h
  h

/-- C136: the board without a file has 12 by 12 points and is 66 centimetres wide and high: six tags of 88 millimetres, each
farther from the next by three tenths of that. -/
theorem default_board : ∃ t, newAprilGrid defaultBoard.grid = .ok t ∧ t.rows = 12 ∧ t.cols = 12 ∧
    width t = .ok (6 * 0.088 + 5 * (0.3 * 0.088)) ∧ height t = .ok (6 * 0.088 + 5 * (0.3 * 0.088)) := by
  have hp : createAprilGridPoints defaultBoard.grid = .ok ((List.range 12).flatMap fun row =>
      (List.range 12).map fun col => (along defaultBoard.grid col, along defaultBoard.grid row, 0)) := by
    unfold createAprilGridPoints defaultBoard
    norm_num
  refine ⟨⟨12, 12, (List.range 12).flatMap fun row =>
      (List.range 12).map fun col => (along defaultBoard.grid col, along defaultBoard.grid row, 0)⟩, ?_, rfl, rfl, ?_, ?_⟩
  · unfold newAprilGrid
    rw [hp, Outcome.bind_ok]
    unfold newTarget
    rw [if_pos (by simp [defaultBoard, List.length_flatMap])]
    rfl
  · have h1 : ∀ t : Target, t = ⟨12, 12, (List.range 12).flatMap fun row =>
      (List.range 12).map fun col => (along defaultBoard.grid col, along defaultBoard.grid row, 0)⟩ →
        gridPoint t 0 11 = .ok (along defaultBoard.grid 11, along defaultBoard.grid 0, 0) ∧
        gridPoint t 0 0 = .ok (along defaultBoard.grid 0, along defaultBoard.grid 0, 0) := by
      rintro _ rfl
      exact ⟨rfl, rfl⟩
    obtain ⟨a, b⟩ := h1 _ rfl
    unfold width
    simp only
    rw [if_pos (by norm_num), a, b]
    simp only [Outcome.bind_ok]
    unfold along defaultBoard
    norm_num
  · have h1 : ∀ t : Target, t = ⟨12, 12, (List.range 12).flatMap fun row =>
      (List.range 12).map fun col => (along defaultBoard.grid col, along defaultBoard.grid row, 0)⟩ →
        gridPoint t 11 0 = .ok (along defaultBoard.grid 0, along defaultBoard.grid 11, 0) ∧
        gridPoint t 0 0 = .ok (along defaultBoard.grid 0, along defaultBoard.grid 0, 0) := by
      rintro _ rfl
      exact ⟨rfl, rfl⟩
    obtain ⟨a, b⟩ := h1 _ rfl
    unfold height
    simp only
    rw [if_pos (by norm_num), a, b]
    simp only [Outcome.bind_ok]
    unfold along defaultBoard
    norm_num

/-! ### A case of each -/

/-- The file of a board of 4 by 5 tags that does not say how many columns, nor how far apart they are. -/
example (C : Codec) (h : C.Exact 1) :
    fromYaml C (some (.map [("target_type", .scalar "aprilgrid"), ("tagRows", .scalar (C.natText 4)),
      ("tagSize", .scalar (C.numText 1)), ("tagSpacing", .scalar (C.numText 1))])) = .ok ⟨⟨4, 6, 1, 1⟩, 2⟩ := by
  have := missing_columns_refuted C (n := .map [("target_type", .scalar "aprilgrid"), ("tagRows", .scalar (C.natText 4)),
      ("tagSize", .scalar (C.numText 1)), ("tagSpacing", .scalar (C.numText 1))]) rfl (r := 4) (s := 1) (v := 1)
      ⟨_, rfl, C.nat_law 64 4 (by norm_num)⟩ ⟨_, rfl, h⟩ ⟨_, rfl, h⟩ (by norm_num) (by norm_num) (by norm_num)
      (by rintro k ⟨s, hs, -⟩; cases hs)
  simpa using this

example (C : Codec) (h : C.Exact 1) :
    fromYaml C (some (.map [("target_type", .scalar "aprilgrid"), ("tagRows", .scalar (C.natText 4)),
      ("tagCols", .scalar (C.natText 5)), ("tagSize", .scalar (C.numText 1))])) = .ub :=
  missing_spacing_refuted C rfl (r := 4) (k := 5) (s := 1)
      ⟨_, rfl, C.nat_law 64 4 (by norm_num)⟩ ⟨_, rfl, C.nat_law 64 5 (by norm_num)⟩ ⟨_, rfl, h⟩ (by norm_num) (by norm_num)
      (by norm_num) (by rintro k ⟨s, hs, -⟩; cases hs)

example (C : Codec) (h : C.Exact 1) : fromYaml C (some (fileOf C ⟨4, 5, 1, 1⟩)) = .ok ⟨⟨4, 5, 1, 1⟩, 2⟩ :=
  file_round_trip C ⟨by norm_num, by norm_num, by norm_num, by norm_num⟩ (by norm_num) (by norm_num) h (by simpa using h)

example (C : Codec) : fromYaml C (some (.map [("target_type", .scalar "checkerboard")])) = .abort :=
  file_rejected C _ (by rintro n ⟨⟩ h; simp [Says, Node.get, Yaml.find] at h)

end Verif.Target
