import Verif.Yaml.SensorLife
import Verif.Yaml.SensorProps
import Verif.HashId.Props

/-!
# The life of a sensor: properties (C127)
-/

namespace Verif.Yaml

open Verif (Outcome)
open Verif.HashId (Id)

/-! ## Reading -/

/-- What a text member is after reading: the scalar of that key, or what it was before if there is no scalar. -/
def TextRead (n : Node) (key old new : String) : Prop :=
  n.get key = some (.scalar new) ∨ (∀ s, n.get key ≠ some (.scalar s)) ∧ new = old

theorem textRead_iff (n : Node) (key old new : String) :
    safeGet n key asString = .ok none ∧ (new = old ↔ TextRead n key old new) ∨
      ∃ s, safeGet n key asString = .ok (some s) ∧ (new = s ↔ TextRead n key old new) := by
  have hs := safeGet_spec n key (some : String → Option String)
  change (∀ v, safeGet n key asString = .ok (some v) ↔ _) ∧ _ at hs
  by_cases h : ∃ s, n.get key = some (.scalar s)
  · obtain ⟨s, hg⟩ := h
    refine Or.inr ⟨s, (hs.1 s).2 ⟨s, hg, rfl⟩, ?_⟩
    constructor
    · rintro rfl
      exact Or.inl hg
    · rintro (h | ⟨h, _⟩)
      · rw [hg] at h
        injection h with h
        injection h with h
        exact h.symm
      · exact absurd hg (h s)
  · have hn : ∀ s, n.get key ≠ some (.scalar s) := fun s e => h ⟨s, e⟩
    refine Or.inl ⟨hs.2 fun v e => ?_, ?_⟩
    · obtain ⟨s, hg, _⟩ := (hs.1 v).1 e
      exact h ⟨s, hg⟩
    · constructor
      · intro e
        exact Or.inr ⟨hn, e⟩
      · rintro (e | ⟨_, e⟩)
        · exact absurd e (hn new)
        · exact e

theorem readTexts_spec (b b' : Base) (n : Node) : (∃ c, readTexts b n = .ok c) ∧
    (readTexts b n = .ok b' ↔ b'.id = b.id ∧ TextRead n "topic" b.topic b'.topic ∧
      TextRead n "description" b.description b'.description) := by
  obtain ⟨i, t, d⟩ := b
  obtain ⟨i', t', d'⟩ := b'
  unfold readTexts
  rcases textRead_iff n "topic" t t' with ⟨h1, e1⟩ | ⟨s1, h1, e1⟩ <;>
    rcases textRead_iff n "description" d d' with ⟨h2, e2⟩ | ⟨s2, h2, e2⟩ <;>
    rw [h1, h2] <;> simp only [Outcome.bind_ok] <;> refine ⟨⟨_, rfl⟩, ?_⟩ <;>
    simp only [Outcome.ok.injEq, Base.mk.injEq, Option.getD_some, Option.getD_none, ← e1, ← e2] <;>
    exact ⟨fun ⟨a, b, c⟩ => ⟨a.symm, b.symm, c.symm⟩, fun ⟨a, b, c⟩ => ⟨a.symm, b.symm, c.symm⟩⟩

/-- The id text of a node, if it has one. -/
def idText (n : Node) : Option String :=
  match n.get "id" with
  | some (.scalar s) => some s
  | _ => none

theorem idText_get (n : Node) : safeGet n "id" asString = .ok (idText n) := by
  have hs := safeGet_spec n "id" (some : String → Option String)
  change (∀ v, safeGet n "id" asString = .ok (some v) ↔ _) ∧ _ at hs
  cases h : idText n with
  | none =>
    refine hs.2 fun v e => ?_
    obtain ⟨s, hg, _⟩ := (hs.1 v).1 e
    unfold idText at h
    rw [hg] at h
    cases h
  | some s =>
    refine (hs.1 s).2 ⟨s, ?_, rfl⟩
    unfold idText at h
    split at h
    · rename_i t ht
      injection h with h
      rw [ht, h]
    · cases h

/-- The id a sensor should have after reading: the one with that hexadecimal form, or the generated one. -/
def IdRead (gen : Id) (n : Node) (old new : Id) : Prop :=
  match idText n with
  | none => new = gen
  | some s => old.fromHexString s.toList = (new, .ok true)

theorem readChecked_spec (b b' : Base) (n : Node) :
    (readChecked b n = (b', .ok ()) ↔ b.id.isValid = true ∧ b'.id = b.id ∧ TextRead n "topic" b.topic b'.topic ∧
      TextRead n "description" b.description b'.description) ∧
      ((readChecked b n).2 = .ok () ∨ readChecked b n = (b, .abort) ∧ b.id.isValid = false) := by
  unfold readChecked
  obtain ⟨⟨c, hc⟩, hi⟩ := readTexts_spec b b' n
  by_cases hv : b.id.isValid = true
  · rw [if_pos hv, hc]
    refine ⟨?_, Or.inl rfl⟩
    rw [hc] at hi
    constructor
    · intro h
      injection h with h
      exact ⟨hv, hi.1 (congrArg Outcome.ok h)⟩
    · rintro ⟨_, h⟩
      have := hi.2 h
      injection this with this
      rw [this]
  · rw [if_neg hv]
    refine ⟨?_, Or.inr ⟨rfl, by simpa using hv⟩⟩
    constructor
    · intro h
      injection h with _ h
      cases h
    · rintro ⟨h, _⟩
      exact absurd h hv

/-- **C127 (reading a sensor).** Reading succeeds exactly if the id is valid; then the id is the one of the node, or a
generated one if the node has none, and topic and description are those of the node, or kept if the node has none. -/
theorem readBase_spec (gen : Id) (b b' : Base) (n : Node) :
    readBase gen b n = (b', .ok ()) ↔ b'.id.isValid = true ∧ IdRead gen n b.id b'.id ∧
      TextRead n "topic" b.topic b'.topic ∧ TextRead n "description" b.description b'.description := by
  unfold readBase IdRead
  rw [idText_get]
  cases h : idText n with
  | none =>
    simp only
    rw [(readChecked_spec _ b' n).1]
    simp only
    constructor
    · rintro ⟨h1, h2, h3⟩
      exact ⟨by rw [h2]; exact h1, h2, h3⟩
    · rintro ⟨h1, h2, h3⟩
      exact ⟨by rw [← h2]; exact h1, h2, h3⟩
  | some s =>
    simp only
    by_cases hs : s = ""
    · rw [if_pos hs]
      constructor
      · intro e
        injection e with _ e
        cases e
      · rintro ⟨_, e, _⟩
        rw [hs, HashId.wrong_length_refused _ _ (by decide)] at e
        injection e with _ e
        cases e
    · rw [if_neg hs]
      rcases hr : b.id.fromHexString s.toList with ⟨id, r⟩
      cases r with
      | ok t =>
        cases t with
        | true =>
          simp only
          rw [(readChecked_spec _ b' n).1]
          simp only [Prod.mk.injEq, and_true]
          constructor
          · rintro ⟨h1, h2, h3⟩
            exact ⟨by rw [h2]; exact h1, h2.symm, h3⟩
          · rintro ⟨h1, h2, h3⟩
            exact ⟨by rw [h2]; exact h1, h2.symm, h3⟩
        | false => simp
      | abort => simp
      | ub => simp
      | exc => simp

/-- Reading agrees with the reading of the base part used for cameras and rigs. -/
theorem readBase_loadBase (gen : Id) (b b' : Base) (n : Node) :
    readBase gen b n = (b', .ok ()) ↔ loadBase gen b n = .ok b' := by
  unfold readBase loadBase
  rw [idText_get]
  have key : ∀ c : Base, c.topic = b.topic → c.description = b.description →
      (readChecked c n = (b', .ok ()) ↔ (if c.id.isValid then
        safeGet n "topic" asString >>= fun topic =>
          safeGet n "description" asString >>= fun description =>
            .ok (⟨c.id, topic.getD b.topic, description.getD b.description⟩ : Base)
      else .abort) = .ok b') := by
    intro c e1 e2
    obtain ⟨⟨d, hd⟩, _⟩ := readTexts_spec c b' n
    have hr : readTexts c n = safeGet n "topic" asString >>= fun topic =>
          safeGet n "description" asString >>= fun description =>
            .ok (⟨c.id, topic.getD b.topic, description.getD b.description⟩ : Base) := by
      unfold readTexts
      rw [e1, e2]
    rw [← hr]
    unfold readChecked
    split
    · rw [hd]
      simp
    · simp
  simp only [Outcome.bind_ok]
  cases h : idText n with
  | none => exact key _ rfl rfl
  | some s =>
    simp only
    by_cases hs : s = ""
    · simp [hs]
    · rw [if_neg hs, if_neg hs]
      rcases hr : b.id.fromHexString s.toList with ⟨id, r⟩
      cases r with
      | ok t =>
        cases t with
        | true => exact key _ rfl rfl
        | false => simp
      | abort => simp
      | ub => simp
      | exc => simp

theorem fromHexLoop_cases (s : List Char) : ∀ (n k : Nat) (i : Id),
    (HashId.fromHexLoop i s k n).2 = .ok true ∨ (HashId.fromHexLoop i s k n).2 = .exc
  | 0, _, _ => Or.inl rfl
  | n + 1, k, i => by
    unfold HashId.fromHexLoop
    split
    · exact Or.inr rfl
    · exact fromHexLoop_cases s n (k + 1) _

/-- **C127 (exceptions).** Reading throws exactly if the id is a text of 32 characters with a pair that is no number;
topic and description are then as before. -/
theorem readBase_throws (gen : Id) (b : Base) (n : Node) :
    ((readBase gen b n).2 = .exc ↔ ∃ s, idText n = some s ∧ s.toList.length = 32 ∧
      ¬ ∀ j < 16, HashId.PairAccepted (HashId.pairAt s.toList j)) ∧
      ((readBase gen b n).2 = .exc → (readBase gen b n).1.topic = b.topic ∧
        (readBase gen b n).1.description = b.description) := by
  have nochk : ∀ c : Base, (readChecked c n).2 ≠ .exc := by
    intro c e
    rcases (readChecked_spec c c n).2 with h | ⟨h, _⟩
    · rw [h] at e; cases e
    · rw [h] at e; cases e
  unfold readBase
  rw [idText_get]
  cases h : idText n with
  | none =>
    simp only
    refine ⟨⟨fun e => absurd e (nochk _), ?_⟩, fun e => absurd e (nochk _)⟩
    rintro ⟨s, e, _⟩
    cases e
  | some s =>
    simp only [Option.some.injEq, exists_eq_left']
    by_cases hs : s = ""
    · rw [if_pos hs]
      simp [hs]
    · rw [if_neg hs]
      have hacc := HashId.accepted_exactly_partial b.id s.toList
      rcases hr : b.id.fromHexString s.toList with ⟨id, r⟩
      rw [hr] at hacc
      have hcases : r = .ok true ∨ r = .ok false ∨ r = .exc := by
        by_cases hl : s.toList.length = 32
        · have : b.id.fromHexString s.toList = HashId.fromHexLoop b.id s.toList 0 16 := by
            unfold HashId.Id.fromHexString
            rw [if_neg (by omega)]
          rw [this] at hr
          rcases fromHexLoop_cases s.toList 16 0 b.id with e | e
          · rw [hr] at e; exact Or.inl e
          · rw [hr] at e; exact Or.inr (Or.inr e)
        · rw [HashId.wrong_length_refused _ _ hl] at hr
          injection hr with _ hr
          exact Or.inr (Or.inl hr.symm)
      rcases hcases with rfl | rfl | rfl
      · simp only
        refine ⟨⟨fun e => absurd e (nochk _), ?_⟩, fun e => absurd e (nochk _)⟩
        rintro ⟨_, hn⟩
        exact absurd (hacc.1.1 rfl).2 hn
      · simp only
        refine ⟨⟨(fun e => by cases e), ?_⟩, (fun e => by cases e)⟩
        rintro ⟨hl, hn⟩
        have := hacc.2 hl hn
        cases this
      · simp only
        refine ⟨⟨fun _ => ?_, fun _ => trivial⟩, fun _ => ⟨trivial, trivial⟩⟩
        have hl : s.toList.length = 32 := by
          by_contra hl
          rw [HashId.wrong_length_refused _ _ hl] at hr
          injection hr with _ hr
          cases hr
        refine ⟨hl, fun hp => ?_⟩
        have := hacc.1.2 ⟨hl, hp⟩
        cases this

/-! ## Making, copying, changing -/

/-- **C127 (constructors).** A sensor has the id, topic and description it is made with; an invalid id ends the
program; without an id it has a generated one and empty texts. -/
theorem newSensor_spec (gen id : Id) (t d : String) :
    newSensor gen none t d = .ok ⟨gen, "", ""⟩ ∧ (id.isValid = true → newSensor gen (some id) t d = .ok ⟨id, t, d⟩) ∧
      (id.isValid = false → newSensor gen (some id) t d = .abort) := by
  refine ⟨rfl, fun h => ?_, fun h => ?_⟩ <;> simp [newSensor, h]

/-- **C127 (copies).** A copy, and a sensor that is assigned to, equals the other. -/
theorem copies (b o : Base) : copySensor o = o ∧ assignSensor b o = o := ⟨rfl, rfl⟩

/-- The ids a call generates are valid, which `generateId` ensures (C26). -/
def SensorLegal : SensorOp → Prop
  | .make gen id _ _ => id = none → gen.isValid = true
  | .setRandom _ gen => gen.isValid = true
  | .read _ gen _ _ => gen.isValid = true
  | _ => True

/-- All sensors have a valid id. -/
def AllValid (s : List Base) : Prop := ∀ b ∈ s, b.id.isValid = true

theorem allValid_set {s : List Base} (h : AllValid s) {i : Nat} {b : Base} (hb : b.id.isValid = true) :
    AllValid (s.set i b) := by
  intro c hc
  rcases List.mem_or_eq_of_mem_set hc with hc | rfl
  · exact h c hc
  · exact hb

theorem allValid_snoc {s : List Base} (h : AllValid s) {b : Base} (hb : b.id.isValid = true) :
    AllValid (s ++ [b]) := by
  intro c hc
  rcases List.mem_append.1 hc with hc | hc
  · exact h c hc
  · rw [List.mem_singleton.1 hc]; exact hb

theorem sensorAt_ok {s : List Base} {i : Nat} {b : Base} (h : sensorAt s i = .ok b) : s[i]? = some b := by
  unfold sensorAt at h
  split at h
  · rename_i hg
    injection h with h
    rw [hg, h]
  · cases h

theorem readSensor_valid {gen : Id} {impl : Outcome Bool} {b b' : Base} {n : Node} {r : Outcome Bool}
    (hb : b.id.isValid = true) (h : readSensor gen impl b n = (b', r))
    (ht : (readBase gen b n).2 ≠ .exc) (hr : r ≠ .abort) : b'.id.isValid = true := by
  unfold readSensor at h
  split at h
  · rcases hc : readBase gen b n with ⟨c, q⟩
    rw [hc] at h ht
    cases q with
    | ok u =>
      simp only [Prod.mk.injEq] at h
      rw [← h.1]
      exact ((readBase_spec gen b c n).1 hc).1
    | abort =>
      simp only [Prod.mk.injEq] at h
      exact absurd h.2.symm hr
    | ub =>
      exfalso
      revert hc
      unfold readBase
      rw [idText_get]
      have nochk : ∀ e : Base, readChecked e n ≠ (c, .ub) := by
        intro e he
        rcases (readChecked_spec e e n).2 with h | ⟨h, _⟩
        · rw [he] at h; cases h
        · rw [he] at h; simp at h
      cases idText n with
      | none => exact nochk _
      | some s =>
        simp only
        split
        · simp
        · rcases hh : b.id.fromHexString s.toList with ⟨id, w⟩
          cases w with
          | ok t => cases t <;> simp [nochk]
          | abort => simp
          | exc => simp
          | ub =>
            exfalso
            unfold HashId.Id.fromHexString at hh
            split at hh
            · simp at hh
            · rcases fromHexLoop_cases s.toList 16 0 b.id with e | e <;> rw [hh] at e <;> cases e
    | exc => exact absurd rfl ht
  · injection h with h _
    rw [← h]
    exact hb

/-- A call in which reading the base part of a sensor throws. -/
def Threw (s : List Base) : SensorOp → Prop
  | .read i gen _ n => ∃ b, s[i]? = some b ∧ n.isMap = true ∧ (readBase gen b n).2 = .exc
  | _ => False

theorem step_valid {s s' : List Base} {o : SensorOp} {r : SensorRes} (h : AllValid s) (hl : SensorLegal o)
    (ht : ¬ Threw s o) (hs : sensorStep s o = .ok (s', r)) : AllValid s' := by
  cases o with
  | make gen id t d =>
    obtain ⟨b, hb, e⟩ := Outcome.bind_eq_ok.1 hs
    simp only [Outcome.ok.injEq, Prod.mk.injEq] at e
    rw [← e.1]
    refine allValid_snoc h ?_
    cases id with
    | none =>
      injection hb with hb
      rw [← hb]
      exact hl rfl
    | some i =>
      by_cases hv : i.isValid = true
      · rw [(newSensor_spec gen i t d).2.1 hv] at hb
        injection hb with hb
        rw [← hb]
        exact hv
      · rw [(newSensor_spec gen i t d).2.2 (by simpa using hv)] at hb
        cases hb
  | copy i =>
    obtain ⟨b, hb, e⟩ := Outcome.bind_eq_ok.1 hs
    simp only [Outcome.ok.injEq, Prod.mk.injEq] at e
    rw [← e.1]
    exact allValid_snoc h (h b (List.mem_of_getElem? (sensorAt_ok hb)))
  | assign i j =>
    obtain ⟨b, hb, e⟩ := Outcome.bind_eq_ok.1 hs
    obtain ⟨c, hc, e⟩ := Outcome.bind_eq_ok.1 e
    simp only [Outcome.ok.injEq, Prod.mk.injEq] at e
    rw [← e.1]
    exact allValid_set h (h c (List.mem_of_getElem? (sensorAt_ok hc)))
  | setId i id =>
    obtain ⟨b, hb, e⟩ := Outcome.bind_eq_ok.1 hs
    obtain ⟨c, hc, e⟩ := Outcome.bind_eq_ok.1 e
    simp only [Outcome.ok.injEq, Prod.mk.injEq] at e
    rw [← e.1]
    unfold setSensorId at hc
    split at hc
    · rename_i hv
      injection hc with hc
      exact allValid_set h (by rw [← hc]; exact hv)
    · cases hc
  | setTopic i t =>
    obtain ⟨b, hb, e⟩ := Outcome.bind_eq_ok.1 hs
    simp only [Outcome.ok.injEq, Prod.mk.injEq] at e
    rw [← e.1]
    exact allValid_set h (h b (List.mem_of_getElem? (sensorAt_ok hb)))
  | setDescription i t =>
    obtain ⟨b, hb, e⟩ := Outcome.bind_eq_ok.1 hs
    simp only [Outcome.ok.injEq, Prod.mk.injEq] at e
    rw [← e.1]
    exact allValid_set h (h b (List.mem_of_getElem? (sensorAt_ok hb)))
  | setRandom i gen =>
    obtain ⟨b, hb, e⟩ := Outcome.bind_eq_ok.1 hs
    simp only [Outcome.ok.injEq, Prod.mk.injEq] at e
    rw [← e.1]
    exact allValid_set h hl
  | read i gen impl n =>
    obtain ⟨b, hb, e⟩ := Outcome.bind_eq_ok.1 hs
    have hg := sensorAt_ok hb
    have hv := h b (List.mem_of_getElem? hg)
    rcases hr : readSensor gen impl b n with ⟨b', q⟩
    rw [hr] at e
    have hnt : q ≠ .abort → b'.id.isValid = true := by
      intro hq
      by_cases hm : n.isMap = true
      · exact readSensor_valid hv hr (fun e => ht ⟨b, hg, hm, e⟩) hq
      · unfold readSensor at hr
        rw [if_neg hm] at hr
        injection hr with hr _
        rw [← hr]
        exact hv
    cases q with
    | ok u =>
      simp only [Outcome.ok.injEq, Prod.mk.injEq] at e
      rw [← e.1]
      exact allValid_set h (hnt (by simp))
    | exc =>
      simp only [Outcome.ok.injEq, Prod.mk.injEq] at e
      rw [← e.1]
      exact allValid_set h (hnt (by simp))
    | abort => cases e
    | ub => cases e
  | getId i =>
    obtain ⟨b, hb, e⟩ := Outcome.bind_eq_ok.1 hs
    obtain ⟨c, hc, e⟩ := Outcome.bind_eq_ok.1 e
    simp only [Outcome.ok.injEq, Prod.mk.injEq] at e
    rw [← e.1]
    exact h

/-- A program in which reading throws, at some point. -/
def ThrewIn : List Base → List SensorOp → Prop
  | _, [] => False
  | s, o :: os => Threw s o ∨ ∃ p, sensorStep s o = .ok p ∧ ThrewIn p.1 os

/-- **C127 (valid for life), partial.** In every program in which reading the base part of a sensor does not throw, all
sensors have a valid id all the time, so `getId` returns it.  Missing: programs that catch the exception of a
malformed id, for which the claim is false. -/
theorem valid_always_partial : ∀ {os : List SensorOp} {s s' : List Base} {rs : List SensorRes}, AllValid s →
    (∀ o ∈ os, SensorLegal o) → ¬ ThrewIn s os → sensorRun s os = .ok (s', rs) →
    AllValid s' ∧ ∀ i (b : Base), s'[i]? = some b → sensorStep s' (.getId i) = .ok (s', .id b.id)
  | [], s, s', rs, h, _, _, hr => by
    injection hr with hr
    injection hr with hr _
    subst hr
    refine ⟨h, fun i b hb => ?_⟩
    simp [sensorStep, sensorAt, hb, getSensorId, h b (List.mem_of_getElem? hb)]
  | o :: os, s, s', rs, h, hl, ht, hr => by
    obtain ⟨⟨s1, r⟩, h1, e⟩ := Outcome.bind_eq_ok.1 hr
    obtain ⟨⟨s2, rs2⟩, h2, e⟩ := Outcome.bind_eq_ok.1 e
    simp only [Outcome.ok.injEq, Prod.mk.injEq] at e
    rw [← e.1]
    exact valid_always_partial
      (step_valid h (hl o (List.mem_cons_self ..)) (fun e => ht (Or.inl e)) h1)
      (fun o ho => hl o (List.mem_cons_of_mem _ ho)) (fun e => ht (Or.inr ⟨_, h1, e⟩)) h2

/-- The sensor a call may change. -/
def SensorOp.target : SensorOp → Option Nat
  | .assign i _ => some i
  | .setId i _ => some i
  | .setTopic i _ => some i
  | .setDescription i _ => some i
  | .setRandom i _ => some i
  | .read i _ _ _ => some i
  | _ => none

/-- **C127 (independence).** A call changes no sensor but the one it is made on; making and copying add one. -/
theorem others_unchanged {s s' : List Base} {o : SensorOp} {r : SensorRes} (hs : sensorStep s o = .ok (s', r))
    (j : Nat) (hj : j < s.length) (ht : o.target ≠ some j) : s'[j]? = s[j]? := by
  have hset : ∀ i (b : Base), i ≠ j → (s.set i b)[j]? = s[j]? := fun i b h => by
    rw [List.getElem?_set_ne h]
  have ht' : ∀ i, o.target = some i → i ≠ j := fun i h e => ht (by rw [h, e])
  cases o with
  | make gen id t d =>
    obtain ⟨b, hb, e⟩ := Outcome.bind_eq_ok.1 hs
    simp only [Outcome.ok.injEq, Prod.mk.injEq] at e
    rw [← e.1, List.getElem?_append_left hj]
  | copy i =>
    obtain ⟨b, hb, e⟩ := Outcome.bind_eq_ok.1 hs
    simp only [Outcome.ok.injEq, Prod.mk.injEq] at e
    rw [← e.1, List.getElem?_append_left hj]
  | assign i k =>
    obtain ⟨b, hb, e⟩ := Outcome.bind_eq_ok.1 hs
    obtain ⟨c, hc, e⟩ := Outcome.bind_eq_ok.1 e
    simp only [Outcome.ok.injEq, Prod.mk.injEq] at e
    rw [← e.1, hset _ _ (ht' i rfl)]
  | setId i id =>
    obtain ⟨b, hb, e⟩ := Outcome.bind_eq_ok.1 hs
    obtain ⟨c, hc, e⟩ := Outcome.bind_eq_ok.1 e
    simp only [Outcome.ok.injEq, Prod.mk.injEq] at e
    rw [← e.1, hset _ _ (ht' i rfl)]
  | setTopic i t =>
    obtain ⟨b, hb, e⟩ := Outcome.bind_eq_ok.1 hs
    simp only [Outcome.ok.injEq, Prod.mk.injEq] at e
    rw [← e.1, hset _ _ (ht' i rfl)]
  | setDescription i t =>
    obtain ⟨b, hb, e⟩ := Outcome.bind_eq_ok.1 hs
    simp only [Outcome.ok.injEq, Prod.mk.injEq] at e
    rw [← e.1, hset _ _ (ht' i rfl)]
  | setRandom i gen =>
    obtain ⟨b, hb, e⟩ := Outcome.bind_eq_ok.1 hs
    simp only [Outcome.ok.injEq, Prod.mk.injEq] at e
    rw [← e.1, hset _ _ (ht' i rfl)]
  | read i gen impl n =>
    obtain ⟨b, hb, e⟩ := Outcome.bind_eq_ok.1 hs
    rcases hr : readSensor gen impl b n with ⟨b', q⟩
    rw [hr] at e
    cases q with
    | ok u =>
      simp only [Outcome.ok.injEq, Prod.mk.injEq] at e
      rw [← e.1, hset _ _ (ht' i rfl)]
    | exc =>
      simp only [Outcome.ok.injEq, Prod.mk.injEq] at e
      rw [← e.1, hset _ _ (ht' i rfl)]
    | abort => cases e
    | ub => cases e
  | getId i =>
    obtain ⟨b, hb, e⟩ := Outcome.bind_eq_ok.1 hs
    obtain ⟨c, hc, e⟩ := Outcome.bind_eq_ok.1 e
    simp only [Outcome.ok.injEq, Prod.mk.injEq] at e
    rw [← e.1]

/-- **C127 (setters).** What the setters do to the sensor they are called on. -/
theorem setters {s : List Base} {i : Nat} {b : Base} (hb : s[i]? = some b) (id : Id) (t : String) :
    (id.isValid = true → sensorStep s (.setId i id) = .ok (s.set i ⟨id, b.topic, b.description⟩, .done)) ∧
      (id.isValid = false → sensorStep s (.setId i id) = .abort) ∧
      sensorStep s (.setTopic i t) = .ok (s.set i ⟨b.id, t, b.description⟩, .done) ∧
      sensorStep s (.setDescription i t) = .ok (s.set i ⟨b.id, b.topic, t⟩, .done) ∧
      sensorStep s (.setRandom i id) = .ok (s.set i ⟨id, b.topic, b.description⟩, .done) ∧
      sensorStep s (.copy i) = .ok (s ++ [b], .done) ∧
      (b.id.isValid = false → sensorStep s (.getId i) = .abort) := by
  refine ⟨fun h => ?_, fun h => ?_, ?_, ?_, ?_, ?_, fun h => ?_⟩ <;>
    simp [sensorStep, sensorAt, hb, setSensorId, getSensorId, copySensor, *]

/-- Assignment between sensors of the program. -/
theorem assign_spec {s : List Base} {i j : Nat} {b o : Base} (hb : s[i]? = some b) (ho : s[j]? = some o) :
    sensorStep s (.assign i j) = .ok (s.set i o, .done) := by
  simp [sensorStep, sensorAt, hb, ho, (copies b o).2]

/-- **C127 (a node that is no map).** Reading from anything but a map returns false and changes nothing. -/
theorem read_no_map {s : List Base} {i : Nat} {b : Base} (hb : s[i]? = some b) (gen : Id) (impl : Outcome Bool)
    {n : Node} (hm : n.isMap = false) : sensorStep s (.read i gen impl n) = .ok (s, .returned false) := by
  have : s.set i b = s := by
    apply List.ext_getElem?
    intro k
    by_cases hk : i = k
    · subst hk
      rw [hb, List.getElem?_set_self (List.getElem?_eq_some_iff.1 hb).1]
    · rw [List.getElem?_set_ne hk]
  simp [sensorStep, sensorAt, hb, readSensor, hm, this]

/-- A malformed id: fifteen zero bytes and something that is no number. -/
def zeros : Node := .map [("id", .scalar "000000000000000000000000000000zz")]

/-- **C127 refuted (valid for life).** A sensor with a generated id (whose last byte is zero, as for the first 2^56 ids
of libstdc++) is read from a node with a malformed id; the caller catches the exception; the sensor now has an
invalid id, and `getId` ends the program. -/
theorem half_read_refuted (gen : Id) (impl : Outcome Bool) :
    sensorRun [] [.make (HashId.generateHash (fun x => x) 31 12345 0).2 none "" "", .getId 0] =
        .ok ([⟨(HashId.generateHash (fun x => x) 31 12345 0).2, "", ""⟩],
          [.done, .id (HashId.generateHash (fun x => x) 31 12345 0).2]) ∧
      sensorRun [] [.make (HashId.generateHash (fun x => x) 31 12345 0).2 none "" "", .read 0 gen impl zeros] =
        .ok ([⟨Id.invalid, "", ""⟩], [.done, .threw]) ∧
      sensorRun [] [.make (HashId.generateHash (fun x => x) 31 12345 0).2 none "" "", .read 0 gen impl zeros, .getId 0] =
        .abort := by
  have hv : (HashId.generateHash (fun x => x) 31 12345 0).2.isValid = true := by decide
  have hz : (HashId.generateHash (fun x => x) 31 12345 0).2.fromHexString "000000000000000000000000000000zz".toList =
      (Id.invalid, .exc) := by decide
  have hi : Id.invalid.isValid = false := by decide
  have hg : idText zeros = some "000000000000000000000000000000zz" := by simp [idText, zeros, Node.get, find]
  have hm : zeros.isMap = true := rfl
  have hr : readBase gen ⟨(HashId.generateHash (fun x => x) 31 12345 0).2, "", ""⟩ zeros =
      (⟨Id.invalid, "", ""⟩, .exc) := by
    unfold readBase
    rw [idText_get, hg]
    simp only [hz]
    rw [if_neg (by decide)]
  refine ⟨?_, ?_, ?_⟩
  · simp [sensorRun, sensorStep, newSensor, sensorAt, getSensorId, hv]
  · simp [sensorRun, sensorStep, newSensor, sensorAt, readSensor, hm, hr]
  · simp [sensorRun, sensorStep, newSensor, sensorAt, readSensor, hm, hr, getSensorId, hi]

/-- **C127 refuted (failed reading keeps the sensor).** After the exception the id is neither the old one nor the one of
the node: its first bytes are those of the node. -/
theorem mixed_id_refuted (gen : Id) :
    ∃ id : Id, readBase gen ⟨HashId.fromUint64 0x1111 0x2222, "t", "d"⟩
        (.map [("id", .scalar "abzz0000000000000000000000000000")]) = (⟨id, "t", "d"⟩, .exc) ∧
      id ≠ HashId.fromUint64 0x1111 0x2222 ∧ id.isValid = true := by
  refine ⟨(HashId.fromUint64 0x1111 0x2222).setByte 0 0xab, ?_, by decide, by decide⟩
  have hg : idText (.map [("id", .scalar "abzz0000000000000000000000000000")]) =
      some "abzz0000000000000000000000000000" := by simp [idText, Node.get, find]
  unfold readBase
  rw [idText_get, hg]
  have hz : (HashId.fromUint64 0x1111 0x2222).fromHexString "abzz0000000000000000000000000000".toList =
      ((HashId.fromUint64 0x1111 0x2222).setByte 0 0xab, .exc) := by decide
  simp only [hz]
  rw [if_neg (by decide)]

/-- Non-vacuity: a program that makes, copies, changes and reads sensors, none of it throwing. -/
example : ∃ s' rs, sensorRun [] [.make (HashId.fromUint64 1 1) none "" "", .copy 0, .setTopic 1 "/cam",
      .read 0 (HashId.fromUint64 1 2) (.ok true) (.map [("topic", .scalar "/imu")])] = .ok (s', rs) ∧
    s' = [⟨HashId.fromUint64 1 2, "/imu", ""⟩, ⟨HashId.fromUint64 1 1, "/cam", ""⟩] ∧
    rs = [.done, .done, .done, .returned true] ∧ AllValid s' := by
  refine ⟨_, _, ?_, rfl, rfl, ?_⟩
  · have hm : (Node.map [("topic", Node.scalar "/imu")]).isMap = true := rfl
    have hr : readBase (HashId.fromUint64 1 2) ⟨HashId.fromUint64 1 1, "", ""⟩ (.map [("topic", .scalar "/imu")]) =
        (⟨HashId.fromUint64 1 2, "/imu", ""⟩, .ok ()) := by
      rw [readBase_spec]
      refine ⟨by decide, ?_, Or.inl ?_, Or.inr ⟨?_, rfl⟩⟩
      · simp [IdRead, idText, Node.get, find]
      · simp [Node.get, find]
      · simp [Node.get, find]
    simp [sensorRun, sensorStep, newSensor, sensorAt, readSensor, hm, hr, copySensor]
  · intro b hb
    simp only [List.mem_cons, List.not_mem_nil, or_false] at hb
    rcases hb with rfl | rfl <;> decide

end Verif.Yaml
