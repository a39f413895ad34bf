import Verif.VisualFrame.Access

/-!
# C122: the accessors of visual frames

The specification: a frame is nine independent slots, each empty or holding a value.  Every sequence of
calls behaves as on such slots, whatever the names of the channels behind them.
-/

namespace Verif.VisualFrame.Access

open Verif (Outcome)

/-! ## Specification -/

/-- A frame as its user sees it: a slot for each kind of data. -/
abbrev Slots := Field → Option Val

/-- Store a value in a slot. -/
def Slots.put (s : Slots) (f : Field) (v : Option Val) : Slots := fun x => if x = f then v else s x

/-- The value of a slot that has never been written before `set` or `swap`. -/
def blank : Field → Val
  | .rawImage => .mat none
  | _ => .cols []

/-- What a call does to the slots and returns. -/
def specStep (s : Slots) : Op → Outcome (Slots × Out)
  | .has f => .ok (s, .bool (s f).isSome)
  | .get f | .readMutable f =>
    match s f with
    | some v => .ok (s, .val v)
    | none => .abort
  | .writeMutable f v =>
    match s f with
    | some _ => .ok (s.put f (some v), .unit)
    | none => .abort
  | .item f i =>
    match s f with
    | some (.cols l) => if h : i < l.length then .ok (s, .entry l[i]) else .abort
    | _ => .abort
  | .set f v => .ok (s.put f (some v), .unit)
  | .swap f (some v) => .ok (s.put f (some v), .val ((s f).getD (blank f)))
  | .swap _ none => .abort
  | .release =>
    match s .rawImage with
    | some _ => .ok (s.put .rawImage none, .unit)
    | none => .abort

/-- A sequence of calls on the slots. -/
def specRun (s : Slots) : List Op → Outcome (Slots × List Out)
  | [] => .ok (s, [])
  | op :: ops =>
    match specStep s op with
    | .ok (s', o) =>
      match specRun s' ops with
      | .ok (s'', os) => .ok (s'', o :: os)
      | .abort => .abort
      | .ub => .ub
      | .exc => .exc
    | .abort => .abort
    | .ub => .ub
    | .exc => .exc

/-- Calls that the C++ types allow and that stay within `int` and without null pointers (except for
`swapTrackIds`, which tests its argument). -/
def Sensible : Op → Prop
  | .writeMutable f v | .set f v => fits f v = true
  | .swap f (some v) => f ≠ .rawImage ∧ fits f v = true
  | .swap f none => f = .trackIds
  | .item f i => f ≠ .rawImage ∧ i < 2 ^ 31
  | _ => True

/-! ## Proofs -/

/-- The channel of a field, for the proofs. -/
private def chan : Field → String := getName

private theorem chan_inj {f f' : Field} (h : chan f = chan f') : f = f' := by
  cases f <;> cases f' <;> first | rfl | (simp [chan, getName] at h)

/-- The slots behind a channel group. -/
private def slots (g : Group) : Slots := fun f => (g (chan f)).map Prod.snd

/-- Channels of fields have their declared type and a value of that type. -/
private def Typed (g : Group) : Prop :=
  ∀ f t v, g (chan f) = some (t, v) → t = declared (chan f) ∧ fits f v = true

private theorem getData_chan {g : Group} (hg : Typed g) (f : Field) :
    getData g (chan f) = match slots g f with
      | some v => .ok v
      | none => .abort := by
  unfold getData slots
  cases h : g (chan f) with
  | none => rfl
  | some p =>
    obtain ⟨t, v⟩ := p
    have := (hg f t v h).1
    simp [this]

private theorem put_slots (g : Group) (f : Field) (v : Val) :
    slots (putData g (chan f) v) = (slots g).put f (some v) := by
  funext x
  unfold slots putData Slots.put
  by_cases h : x = f
  · subst h; simp
  · have : chan x ≠ chan f := fun h' => h (chan_inj h')
    simp [h, this]

private theorem put_typed {g : Group} (hg : Typed g) {f : Field} {v : Val} (hv : fits f v = true) :
    Typed (putData g (chan f) v) := by
  intro x t w h
  unfold putData at h
  by_cases hx : x = f
  · subst hx
    simp at h
    exact ⟨h.1.symm, h.2 ▸ hv⟩
  · have : chan x ≠ chan f := fun h' => hx (chan_inj h')
    rw [if_neg this] at h
    exact hg x t w h

private theorem initial_chan (f : Field) : initial (declared (chan f)) = blank f := by
  cases f <;> rfl

private theorem fits_blank (f : Field) : fits f (blank f) = true := by cases f <;> rfl

private theorem hasChannel_chan (g : Group) (f : Field) : hasChannel g (chan f) = (slots g f).isSome := by
  simp [hasChannel, slots]

private theorem ensure {g : Group} (hg : Typed g) (f : Field) :
    ∃ g', addIfMissing g ⟨chan f, chan f, chan f⟩ = .ok g' ∧ Typed g' ∧
      slots g' = (slots g).put f (some ((slots g f).getD (blank f))) := by
  cases h : g (chan f) with
  | none =>
    refine ⟨putData g (chan f) (blank f), ?_, put_typed hg (fits_blank f), ?_⟩
    · simp [addIfMissing, hasChannel, h, addChannel, initial_chan]
    · rw [put_slots]
      simp [slots, h]
  | some p =>
    refine ⟨g, by simp [addIfMissing, hasChannel, h], hg, ?_⟩
    funext x
    unfold Slots.put
    by_cases hx : x = f
    · subst hx; simp [slots, h]
    · simp [hx]

private theorem setField_chan {g : Group} (hg : Typed g) {f : Field} {v : Val} (hv : fits f v = true) :
    ∃ g', setField g f v = .ok g' ∧ Typed g' ∧ slots g' = (slots g).put f (some v) := by
  obtain ⟨g', h1, h2, h3⟩ := ensure hg f
  have hn : setNames f = ⟨chan f, chan f, chan f⟩ := by cases f <;> rfl
  refine ⟨putData g' (chan f) v, ?_, put_typed h2 hv, ?_⟩
  · unfold setField
    simp only [hn]
    rw [h1]
    simp only [Outcome.bind_ok]
    rw [getData_chan h2, h3]
    simp [Slots.put]
  · rw [put_slots, h3]
    funext x
    unfold Slots.put
    by_cases hx : x = f <;> simp [hx]

private theorem swapField_chan {g : Group} (hg : Typed g) {f : Field} {v : Val} (hf : f ≠ .rawImage)
    (hv : fits f v = true) :
    ∃ g', swapField g f (some v) = .ok (g', (slots g f).getD (blank f)) ∧ Typed g' ∧
      slots g' = (slots g).put f (some v) := by
  obtain ⟨g', h1, h2, h3⟩ := ensure hg f
  have hn : swapNames f = some ⟨chan f, chan f, chan f⟩ := by cases f <;> first | rfl | exact absurd rfl hf
  refine ⟨putData g' (chan f) v, ?_, put_typed h2 hv, ?_⟩
  · unfold swapField
    simp only [hn]
    rw [if_neg (by simp), h1]
    simp only [Outcome.bind_ok]
    rw [getData_chan h2, h3]
    simp [Slots.put]
  · rw [put_slots, h3]
    funext x
    unfold Slots.put
    by_cases hx : x = f <;> simp [hx]

private theorem toInt_small {i : Nat} (h : i < 2 ^ 31) : toInt i = i := by
  unfold toInt
  have : i % 2 ^ 32 = i := Nat.mod_eq_of_lt (by omega)
  rw [this, if_pos h]

private theorem step_spec {g : Group} (hg : Typed g) {op : Op} (hop : Sensible op) :
    (∃ g' o, step g op = .ok (g', o) ∧ Typed g' ∧ specStep (slots g) op = .ok (slots g', o)) ∨
    (step g op = .abort ∧ specStep (slots g) op = .abort) := by
  cases op with
  | has f =>
    left
    refine ⟨g, _, rfl, hg, ?_⟩
    have : hasName f = chan f := by cases f <;> rfl
    simp [specStep, this, hasChannel_chan]
  | get f =>
    have h := getData_chan hg f
    cases hs : slots g f with
    | none => right; simp [step, specStep, hs, h, show getName f = chan f from rfl]
    | some v =>
      left
      exact ⟨g, .val v, by simp [step, hs, h, show getName f = chan f from rfl], hg, by simp [specStep, hs]⟩
  | readMutable f =>
    have h := getData_chan hg f
    have hn : mutableName f = chan f := by cases f <;> rfl
    cases hs : slots g f with
    | none => right; simp [step, specStep, hs, h, hn]
    | some v => left; exact ⟨g, .val v, by simp [step, hs, h, hn], hg, by simp [specStep, hs]⟩
  | writeMutable f v =>
    have h := getData_chan hg f
    have hn : mutableName f = chan f := by cases f <;> rfl
    cases hs : slots g f with
    | none => right; simp [step, specStep, hs, h, hn]
    | some w =>
      left
      exact ⟨putData g (chan f) v, .unit, by simp [step, hs, h, hn], put_typed hg hop,
        by simp [specStep, hs, put_slots]⟩
  | item f i =>
    obtain ⟨hf, hi⟩ := hop
    have h := getData_chan hg f
    have hn : itemName f = some (chan f) := by cases f <;> first | rfl | exact absurd rfl hf
    cases hs : slots g f with
    | none => right; simp [step, specStep, item, hs, h, hn]
    | some w =>
      cases w with
      | mat m =>
        exfalso
        have : ∃ t, g (chan f) = some (t, .mat m) := by
          unfold slots at hs
          cases hg' : g (chan f) with
          | none => rw [hg'] at hs; cases hs
          | some p =>
            rw [hg'] at hs
            have hp : p.2 = .mat m := by simpa using hs
            exact ⟨p.1, by rw [← hp]⟩
        obtain ⟨t, ht⟩ := this
        have := (hg f t _ ht).2
        cases f <;> first | exact absurd rfl hf | (simp [fits] at this)
      | cols l =>
        by_cases hl : i < l.length
        · left
          refine ⟨g, .entry l[i], ?_, hg, by simp [specStep, hs, hl]⟩
          have : toInt i < (l.length : Int) := by rw [toInt_small hi]; exact_mod_cast hl
          simp [step, item, hs, h, hn, this, hl]
        · right
          have : ¬ toInt i < (l.length : Int) := by rw [toInt_small hi]; exact_mod_cast hl
          constructor
          · simp only [step, item, hs, h, hn, Outcome.bind_ok]
            rw [if_neg this]; rfl
          · simp [specStep, hs, hl]
  | set f v =>
    obtain ⟨g', h1, h2, h3⟩ := setField_chan hg (f := f) (v := v) hop
    left
    exact ⟨g', .unit, by simp [step, h1], h2, by simp [specStep, h3]⟩
  | swap f p =>
    cases p with
    | none =>
      right
      have hf : f = .trackIds := hop
      subst hf
      exact ⟨rfl, rfl⟩
    | some v =>
      obtain ⟨g', h1, h2, h3⟩ := swapField_chan hg hop.1 hop.2
      left
      exact ⟨g', .val ((slots g f).getD (blank f)), by simp [step, h1], h2, by simp [specStep, h3]⟩
  | release =>
    have hn : "RAW_IMAGE" = chan .rawImage := rfl
    cases hr : g (chan .rawImage) with
    | none =>
      right
      constructor
      · simp [step, releaseRawImage, removeChannel, hn, hr]
      · simp [specStep, slots, hr]
    | some p =>
      left
      refine ⟨fun n => if n = chan .rawImage then none else g n, .unit, ?_, ?_, ?_⟩
      · simp [step, releaseRawImage, removeChannel, hn, hr]
      · intro f t v h
        simp only [] at h
        by_cases hf : chan f = chan .rawImage
        · rw [if_pos hf] at h; cases h
        · rw [if_neg hf] at h; exact hg f t v h
      · simp only [specStep, show slots g .rawImage = some p.2 by simp [slots, hr]]
        congr 2
        funext x
        unfold Slots.put
        by_cases hx : x = .rawImage
        · subst hx; simp [slots]
        · have : chan x ≠ chan .rawImage := fun h' => hx (chan_inj h')
          simp [hx, this, slots]

private theorem run_slots {g : Group} (hg : Typed g) {ops : List Op} (hops : ∀ op ∈ ops, Sensible op) :
    (∃ g' os, run g ops = .ok (g', os) ∧ Typed g' ∧ specRun (slots g) ops = .ok (slots g', os)) ∨
    (run g ops = .abort ∧ specRun (slots g) ops = .abort) := by
  induction ops generalizing g with
  | nil => left; exact ⟨g, [], rfl, hg, rfl⟩
  | cons op ops ih =>
    rcases step_spec hg (hops op (by simp)) with ⟨g', o, h1, h2, h3⟩ | ⟨h1, h2⟩
    · rcases ih h2 (fun x hx => hops x (by simp [hx])) with ⟨g'', os, k1, k2, k3⟩ | ⟨k1, k2⟩
      · left
        exact ⟨g'', o :: os, by simp [run, h1, k1], k2, by simp [specRun, h3, k3]⟩
      · right
        exact ⟨by simp [run, h1, k1], by simp [specRun, h3, k2]⟩
    · right
      exact ⟨by simp [run, h1], by simp [specRun, h2]⟩

private theorem empty_typed : Typed Group.empty := by
  intro f t v h; cases h

private theorem empty_slots : slots Group.empty = fun _ => none := rfl

/-! ## Theorems -/

/-- What the calls of a program return, if it does not abort. -/
def outputs : Outcome (Group × List Out) → Outcome (List Out)
  | .ok (_, os) => .ok os
  | .abort => .abort
  | .ub => .ub
  | .exc => .exc

/-- What the calls on slots return. -/
def specOutputs : Outcome (Slots × List Out) → Outcome (List Out)
  | .ok (_, os) => .ok os
  | .abort => .abort
  | .ub => .ub
  | .exc => .exc

/-- Every program of sensible calls on a new frame returns what it would return on nine independent slots,
and aborts exactly where a slot is missing or an index is out of range. -/
theorem frame_refines_slots (ops : List Op) (hops : ∀ op ∈ ops, Sensible op) :
    outputs (run Group.empty ops) = specOutputs (specRun (fun _ => none) ops) := by
  rcases run_slots empty_typed hops with ⟨g', os, h1, _, h3⟩ | ⟨h1, h2⟩
  · rw [h1, ← empty_slots, h3]; rfl
  · rw [h1, ← empty_slots, h2]; rfl

example : run Group.empty [.set .scores (.cols [5, 7]), .has .scales, .item .scores 1,
      .swap .scores (some (.cols [9])), .get .scores] =
    .ok (putData (putData (putData Group.empty "VISUAL_KEYPOINT_SCORES" (.cols []))
        "VISUAL_KEYPOINT_SCORES" (.cols [5, 7])) "VISUAL_KEYPOINT_SCORES" (.cols [9]),
      [.unit, .bool false, .entry 7, .val (.cols [5, 7]), .val (.cols [9])]) := rfl

/-- A frame reached by sensible calls. -/
def Reached (g : Group) : Prop :=
  ∃ ops os, (∀ op ∈ ops, Sensible op) ∧ run Group.empty ops = .ok (g, os)

private theorem reached_typed {g : Group} (h : Reached g) : Typed g := by
  obtain ⟨ops, os, h1, h2⟩ := h
  rcases run_slots empty_typed h1 with ⟨g', os', k1, k2, _⟩ | ⟨k1, _⟩
  · rw [h2] at k1; cases k1; exact k2
  · rw [h2] at k1; cases k1

/-- After a setter the getter, the mutable getter and `has…` of that field see the new value; the accessors of
all other fields see what they saw before. -/
theorem set_then_get {g : Group} (hg : Reached g) (f : Field) (v : Val) (hv : fits f v = true) :
    ∃ g', step g (.set f v) = .ok (g', .unit) ∧
      step g' (.has f) = .ok (g', .bool true) ∧
      step g' (.get f) = .ok (g', .val v) ∧
      step g' (.readMutable f) = .ok (g', .val v) ∧
      ∀ f' ≠ f, (step g' (.has f')).bind (fun r => .ok r.2) = (step g (.has f')).bind (fun r => .ok r.2) ∧
        (step g' (.get f')).bind (fun r => .ok r.2) = (step g (.get f')).bind (fun r => .ok r.2) := by
  have ht := reached_typed hg
  obtain ⟨g', h1, h2, h3⟩ := setField_chan ht (f := f) (v := v) hv
  have hhas : ∀ x, hasName x = chan x := by intro x; cases x <;> rfl
  have hmut : ∀ x, mutableName x = chan x := by intro x; cases x <;> rfl
  have hget : ∀ x, getName x = chan x := fun x => rfl
  refine ⟨g', by simp [step, h1], ?_, ?_, ?_, ?_⟩
  · simp [step, hhas, hasChannel_chan, h3, Slots.put]
  · simp [step, hget, getData_chan h2, h3, Slots.put]
  · simp [step, hmut, getData_chan h2, h3, Slots.put]
  · intro f' hf'
    constructor
    · simp [step, hhas, hasChannel_chan, h3, Slots.put, hf', Outcome.bind]
    · simp only [step, hget, getData_chan h2, getData_chan ht, h3, Slots.put, hf', if_false]
      cases slots g f' <;> rfl

example : Reached Group.empty := ⟨[], [], by simp, rfl⟩
example : fits .rawImage (.mat (some 3)) = true := rfl

/-- Swapping hands out exactly what the getter returned before, or an empty value if there was none, and the
getter then returns what was handed in; in particular swapping twice restores the field. -/
theorem swap_exchanges {g : Group} (hg : Reached g) (f : Field) (hf : f ≠ .rawImage) (v : Val)
    (hv : fits f v = true) :
    ∃ g' old, step g (.swap f (some v)) = .ok (g', .val old) ∧
      (step g (.get f) = .ok (g, .val old) ∨ step g (.get f) = .abort ∧ old = .cols []) ∧
      step g' (.get f) = .ok (g', .val v) ∧
      ∃ g'', step g' (.swap f (some old)) = .ok (g'', .val v) ∧ step g'' (.get f) = .ok (g'', .val old) := by
  have ht := reached_typed hg
  obtain ⟨g', h1, h2, h3⟩ := swapField_chan ht hf hv
  have hold : fits f ((slots g f).getD (blank f)) = true := by
    cases hs : g (chan f) with
    | none => simp [slots, hs, fits_blank]
    | some p => simp [slots, hs, (ht f p.1 p.2 hs).2]
  obtain ⟨g'', k1, k2, k3⟩ := swapField_chan h2 hf hold
  have hget : ∀ x, getName x = chan x := fun x => rfl
  refine ⟨g', (slots g f).getD (blank f), by simp [step, h1], ?_, ?_, g'', ?_, ?_⟩
  · cases hs : slots g f with
    | some w => left; simp [step, hget, getData_chan ht, hs]
    | none =>
      right
      refine ⟨by simp [step, hget, getData_chan ht, hs], ?_⟩
      cases f <;> first | rfl | exact absurd rfl hf
  · simp [step, hget, getData_chan h2, h3, Slots.put]
  · simp [step, k1, h3, Slots.put]
  · simp [step, hget, getData_chan k2, k3, Slots.put]

/-- Data that was never set, or an image that was released, cannot be read: the program aborts and `has…`
says so beforehand. -/
theorem missing_aborts {g : Group} (hg : Reached g) (f : Field) :
    step g (.has f) = .ok (g, .bool false) ↔ step g (.get f) = .abort := by
  have ht := reached_typed hg
  have hhas : hasName f = chan f := by cases f <;> rfl
  simp only [step, hhas, hasChannel_chan, show getName f = chan f from rfl, getData_chan ht]
  cases slots g f <;> simp

/-- Releasing the image leaves a frame without image; releasing it again aborts. -/
theorem release_once {g g' : Group} {o : Out} (h : step g .release = .ok (g', o)) :
    step g' (.has .rawImage) = .ok (g', .bool false) ∧ step g' .release = .abort ∧
      (∀ n, n ≠ "RAW_IMAGE" → g' n = g n) := by
  simp only [step, releaseRawImage, removeChannel] at h
  cases hr : g "RAW_IMAGE" with
  | none => rw [hr] at h; simp at h
  | some p =>
    rw [hr] at h
    simp only [Outcome.bind_ok, Outcome.ok.injEq, Prod.mk.injEq] at h
    obtain ⟨h1, _⟩ := h
    subst h1
    refine ⟨by simp [step, hasChannel, hasName], by simp [step, releaseRawImage, removeChannel], ?_⟩
    intro n hn
    simp [hn]

example : ∃ g' o, step (putData Group.empty "RAW_IMAGE" (.mat (some 1))) .release = .ok (g', o) :=
  ⟨_, _, rfl⟩

/-- Calls leave channels alone that do not belong to the nine fields (the descriptors, and channels
that the user has added under names of their own). -/
theorem others_untouched {g g' : Group} {op : Op} {o : Out} (h : step g op = .ok (g', o)) (n : String)
    (hn : ∀ f, n ≠ getName f) : g' n = g n := by
  have hput : ∀ (g : Group) (f : Field) (v : Val), putData g (chan f) v n = g n := by
    intro g f v; simp [putData, hn f, chan]
  have hens : ∀ (g g' : Group) (f : Field),
      addIfMissing g ⟨chan f, chan f, chan f⟩ = .ok g' → g' n = g n := by
    intro g g' f h
    simp only [addIfMissing] at h
    by_cases hc : hasChannel g (chan f) = true
    · rw [if_pos hc] at h; cases h; rfl
    · rw [if_neg hc] at h
      unfold addChannel at h
      cases hx : g (chan f) with
      | some p => rw [hx] at h; cases h
      | none => rw [hx] at h; cases h; exact hput _ _ _
  cases op with
  | has f => simp only [step, Outcome.ok.injEq, Prod.mk.injEq] at h; rw [← h.1]
  | get f =>
    obtain ⟨v, _, h⟩ := Outcome.bind_eq_ok.1 h
    cases h; rfl
  | readMutable f =>
    obtain ⟨v, _, h⟩ := Outcome.bind_eq_ok.1 h
    cases h; rfl
  | writeMutable f v =>
    obtain ⟨w, _, h⟩ := Outcome.bind_eq_ok.1 h
    cases h
    rw [show mutableName f = chan f by cases f <;> rfl]
    exact hput _ _ _
  | item f i =>
    obtain ⟨x, _, h⟩ := Outcome.bind_eq_ok.1 h
    cases h; rfl
  | set f v =>
    obtain ⟨g1, h1, h⟩ := Outcome.bind_eq_ok.1 h
    cases h
    unfold setField at h1
    simp only [show setNames f = ⟨chan f, chan f, chan f⟩ by cases f <;> rfl] at h1
    obtain ⟨g2, h2, h1⟩ := Outcome.bind_eq_ok.1 h1
    obtain ⟨w, _, h1⟩ := Outcome.bind_eq_ok.1 h1
    cases h1
    rw [hput, hens _ _ _ h2]
  | swap f p =>
    obtain ⟨⟨g1, old⟩, h1, h⟩ := Outcome.bind_eq_ok.1 h
    cases h
    unfold swapField at h1
    cases hs : swapNames f with
    | none => rw [hs] at h1; cases h1
    | some m =>
      have hm : m = ⟨chan f, chan f, chan f⟩ := by
        cases f <;> first | (cases hs; rfl) | cases hs
      subst hm
      rw [hs] at h1
      simp only [] at h1
      split at h1
      · cases h1
      · obtain ⟨g2, h2, h1⟩ := Outcome.bind_eq_ok.1 h1
        obtain ⟨w, _, h1⟩ := Outcome.bind_eq_ok.1 h1
        cases p with
        | none => cases h1
        | some v =>
          cases h1
          rw [hput, hens _ _ _ h2]
  | release =>
    obtain ⟨g1, h1, h⟩ := Outcome.bind_eq_ok.1 h
    cases h
    unfold releaseRawImage removeChannel at h1
    cases hr : g "RAW_IMAGE" with
    | none => rw [hr] at h1; cases h1
    | some p =>
      rw [hr] at h1
      cases h1
      have : n ≠ "RAW_IMAGE" := hn .rawImage
      simp [this]

example : ∀ f, "DESCRIPTORS" ≠ getName f := by intro f; cases f <;> decide

/-- A channel under the name of a field but of another type (made with `addChannel<T>`) makes the getter and
the setter of that field abort although `has…` is true. -/
theorem foreign_type_aborts (g : Group) (f : Field) (t : Ty) (w v : Val) (ht : t ≠ declared (getName f))
    (hg : g (getName f) = some (t, w)) :
    step g (.has f) = .ok (g, .bool true) ∧ step g (.get f) = .abort ∧ step g (.set f v) = .abort := by
  have hd : getData g (getName f) = .abort := by
    unfold getData; rw [hg]; simp [ht]
  have hh : hasChannel g (getName f) = true := by simp [hasChannel, hg]
  refine ⟨?_, by simp [step, hd], ?_⟩
  · rw [show step g (.has f) = .ok (g, .bool (hasChannel g (hasName f))) from rfl,
      show hasName f = getName f by cases f <;> rfl, hh]
  · unfold step setField
    simp only [show setNames f = ⟨getName f, getName f, getName f⟩ by cases f <;> rfl]
    simp [addIfMissing, hh, hd]

example : Ty.vectorXi ≠ declared (getName .scores) := by decide

/-- The accessor by index for every `size_t`: the entry if the index is in range, otherwise an abort as long as
the index, cut to 32 bits, is not negative or below the length — and undefined behaviour if it is. -/
theorem item_cases {g : Group} (hg : Reached g) (f : Field) (l : List Int)
    (h : step g (.get f) = .ok (g, .val (.cols l))) (hl : l.length ≤ 2 ^ 31) (i : Nat) :
    (∀ hi : i < l.length, step g (.item f i) = .ok (g, .entry l[i])) ∧
    (l.length ≤ i → i < 2 ^ 31 → step g (.item f i) = .abort) ∧
    (2 ^ 31 ≤ i → i < 2 ^ 32 → step g (.item f i) = .ub) ∧
    (2 ^ 32 ≤ i → i % 2 ^ 32 < l.length → step g (.item f i) = .ub) := by
  have ht := reached_typed hg
  have hget : ∀ x, getName x = chan x := fun x => rfl
  have hs : slots g f = some (.cols l) := by
    simp only [step, hget, getData_chan ht] at h
    cases hs : slots g f with
    | none => rw [hs] at h; simp at h
    | some w => rw [hs] at h; simpa using h
  have hf : f ≠ .rawImage := by
    intro hf
    subst hf
    unfold slots at hs
    cases hx : g (chan .rawImage) with
    | none => rw [hx] at hs; cases hs
    | some p =>
      rw [hx] at hs
      have := (ht _ p.1 p.2 hx).2
      have hp : p.2 = .cols l := by simpa using hs
      rw [hp] at this
      cases this
  have hn : itemName f = some (chan f) := by cases f <;> first | rfl | exact absurd rfl hf
  have key : step g (.item f i) =
      (if toInt i < (l.length : Int) then
        (match l[i]? with
        | some x => Outcome.ok (g, Out.entry x)
        | none => .ub) else .abort) := by
    simp only [step, item, hn, getData_chan ht, hs, Outcome.bind_ok]
    split
    · cases l[i]? <;> rfl
    · rfl
  refine ⟨fun hi => ?_, fun h1 h2 => ?_, fun h1 h2 => ?_, fun h1 h2 => ?_⟩
  · have : toInt i < (l.length : Int) := by rw [toInt_small (by omega)]; exact_mod_cast hi
    rw [key, if_pos this]
    simp [hi]
  · have : ¬ toInt i < (l.length : Int) := by rw [toInt_small h2]; exact_mod_cast Nat.not_lt.2 h1
    rw [key, if_neg this]
  · have hm : i % 2 ^ 32 = i := Nat.mod_eq_of_lt h2
    have : toInt i < (l.length : Int) := by
      unfold toInt
      rw [hm, if_neg (by omega)]
      omega
    rw [key, if_pos this, List.getElem?_eq_none (by omega)]
  · have : toInt i < (l.length : Int) := by
      unfold toInt
      rw [if_pos (by omega)]
      exact_mod_cast h2
    rw [key, if_pos this, List.getElem?_eq_none (by omega)]

example : ∃ g os, run Group.empty [.set .trackIds (.cols [4, -1])] = .ok (g, os) ∧
    step g (.get .trackIds) = .ok (g, .val (.cols [4, -1])) := ⟨_, _, rfl, rfl⟩

/-- The check of the index does not protect the access: an index of `2^31` (for instance `size_t(int(-2^31))`, and
just so `size_t(-1)`) passes it on an empty vector. -/
theorem index_check_refuted :
    ¬ ∀ (ops : List Op) (f : Field) (i : Nat), i < 2 ^ 64 →
      ∀ g os, run Group.empty ops = .ok (g, os) → step g (.item f i) ≠ .ub := by
  intro h
  exact h [.set .scores (.cols [])] .scores (2 ^ 64 - 1) (by decide) _ _ rfl (by rfl)

/-- A null pointer is caught by `swapTrackIds` alone: the other swapping functions dereference it. -/
theorem swap_null (f : Field) (hf : f ≠ .rawImage) :
    step Group.empty (.swap f none) = if f = .trackIds then .abort else .ub := by
  cases f <;> first | rfl | exact absurd rfl hf

/-- So a null pointer is not always met by a failing check. -/
theorem swap_null_refuted :
    ¬ ∀ f, f ≠ .rawImage → step Group.empty (.swap f none) = .abort := by
  intro h
  have := h .scores (by decide)
  rw [swap_null _ (by decide)] at this
  cases this

end Verif.VisualFrame.Access
