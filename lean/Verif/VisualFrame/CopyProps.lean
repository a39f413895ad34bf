import Verif.VisualFrame.Copy
import Verif.Channels.Props

/-!
# Properties C35 and C36
-/

namespace Verif.VisualFrame.Copy

open Verif (Outcome)
open Verif.Channels (SGroup Spec Store Group Obj defaultVal)

/-! ## Specification: frames are values -/

/-- A frame as a value. -/
structure SFrame where
  ts : Int
  id : Nat
  cam : Option Nat
  raw : Option Nat
  valid : Bool
  chans : SGroup

/-- A call on one channel of a frame. -/
def chanSpec (m : SGroup) : ChOp → Outcome (SGroup × Channels.Out)
  | .add n t => if (m n).isSome then .abort else .ok (m.update n (some ⟨t, defaultVal⟩), .val defaultVal)
  | .get n t =>
    match m n with
    | some o => if o.ty = t then .ok (m, .val o.val) else .abort
    | none => .abort
  | .set n t v =>
    match m n with
    | some o => if o.ty = t then .ok (m.update n (some ⟨t, v⟩), .unit) else .abort
    | none => .abort
  | .has n => .ok (m, .bool (m n).isSome)
  | .remove n => if (m n).isSome then .ok (m.update n none, .unit) else .abort

/-- Change of one frame. -/
def specModify (a : List SFrame) (f : Nat) (h : SFrame → SFrame) : Option (Outcome (List SFrame × Out)) :=
  a[f]?.map fun v => .ok (a.set f (h v), .unit)

/-- What the calls on frames should do: a copy is a further frame with the same value; an assignment replaces
the value; everything else changes only the frame it names. -/
def specStep (a : List SFrame) : FOp → Option (Outcome (List SFrame × Out))
  | .new => some (.ok (a ++ [⟨invalidTime, 0, none, none, true, fun _ => none⟩], .frame a.length))
  | .copy src => a[src]?.map fun v => .ok (a ++ [v], .frame a.length)
  | .assign dst src =>
    match a[dst]?, a[src]? with
    | some _, some v => some (.ok (a.set dst v, .unit))
    | _, _ => none
  | .setTs f t => specModify a f (fun v => { v with ts := t })
  | .setId f i => specModify a f (fun v => { v with id := i })
  | .setCam f c => specModify a f (fun v => { v with cam := c })
  | .setRaw f c => specModify a f (fun v => { v with raw := c })
  | .invalidate f => specModify a f (fun v => { v with valid := false })
  | .chan f c => a[f]?.map fun v =>
      match chanSpec v.chans c with
      | .ok (m, o) => .ok (a.set f { v with chans := m }, .chan o)
      | .abort => .abort
      | .ub => .ub
      | .exc => .exc

/-! ## The values of the frames of a program -/

/-- The value of a frame. -/
def value (s : Store) (v : VF) : SFrame :=
  ⟨v.ts, v.id, v.cam, v.raw, v.valid, ((Channels.abs s)[v.group]?).getD (fun _ => none)⟩

/-- The values of all frames. -/
def values (w : World) : List SFrame := w.frames.map (value w.store)

/-- Every frame has a channel group of its own. -/
structure Inv (w : World) : Prop where
  store : Channels.Inv w.store
  valid : ∀ (f : Nat) v, w.frames[f]? = some v → v.group < w.store.groups.length
  own : ∀ (f g : Nat) v u, w.frames[f]? = some v → w.frames[g]? = some u → v.group = u.group → f = g

theorem inv_empty : Inv World.empty :=
  ⟨Channels.inv_empty, by simp [World.empty], by simp [World.empty]⟩

theorem toOp_unsharing (g : Nat) (c : ChOp) : (c.toOp g).Unsharing := by cases c <;> trivial

theorem set_self {α : Type} {a : List α} {g : Nat} {m : α} (h : a[g]? = some m) : a.set g m = a := by
  apply List.ext_getElem?
  intro k
  rw [List.getElem?_set]
  split
  · next e =>
    subst e
    split
    · exact h.symm
    · next hn => rw [List.getElem?_eq_none (by omega)] at h; simp at h
  · rfl

/-- The call on the map of one group. -/
theorem spec_chan (a : Spec) (g : Nat) (c : ChOp) :
    a.step (c.toOp g) = a[g]?.map fun m =>
      match chanSpec m c with
      | .ok (m', o) => .ok (a.set g m', o)
      | .abort => .abort
      | .ub => .ub
      | .exc => .exc := by
  cases hg : a[g]? with
  | none => cases c <;> simp [ChOp.toOp, Spec.step, hg]
  | some m =>
    have hs := set_self hg
    cases c with
    | add n t =>
      simp only [ChOp.toOp, Spec.step, hg, Option.map_some, chanSpec]
      split <;> simp_all
    | get n t =>
      simp only [ChOp.toOp, Spec.step, hg, Option.map_some, chanSpec]
      cases m n with
      | none => rfl
      | some o =>
        simp only
        by_cases h : o.ty = t
        · rw [if_pos h, if_pos h]; simp [hs]
        · rw [if_neg h, if_neg h]
    | set n t v =>
      simp only [ChOp.toOp, Spec.step, hg, Option.map_some, chanSpec]
      cases m n with
      | none => rfl
      | some o =>
        simp only
        by_cases h : o.ty = t
        · rw [if_pos h, if_pos h]
        · rw [if_neg h, if_neg h]
    | has n =>
      simp only [ChOp.toOp, Spec.step, hg, Option.map_some, chanSpec, hs]
    | remove n =>
      simp only [ChOp.toOp, Spec.step, hg, Option.map_some, chanSpec]
      split <;> simp_all

theorem values_getElem? (w : World) (k : Nat) : (values w)[k]? = w.frames[k]?.map (value w.store) := by
  simp [values]

theorem abs_length (s : Store) : (Channels.abs s).length = s.groups.length := by simp [Channels.abs]

/-- Members changed, store unchanged. -/
theorem modify_refines {w : World} (hi : Inv w) (f : Nat) (h : VF → VF) (h' : SFrame → SFrame)
    (hg : ∀ v, (h v).group = v.group) (hv : ∀ v, value w.store (h v) = h' (value w.store v)) :
    match modify w f h, specModify (values w) f h' with
    | some (.ok (w', o)), some (.ok (a', o')) => o = o' ∧ values w' = a' ∧ Inv w'
    | none, none => True
    | _, _ => False := by
  unfold modify specModify
  rw [values_getElem?]
  cases hf : w.frames[f]? with
  | none => simp
  | some v =>
    simp only [Option.map_some]
    refine ⟨trivial, ?_, hi.store, ?_, ?_⟩
    · simp only [values]
      rw [List.map_set, hv]
    · intro k u hk
      simp only at hk
      rw [List.getElem?_set] at hk
      split at hk
      · split at hk
        · simp only [Option.some.injEq] at hk
          subst hk
          rw [hg]
          exact hi.valid f v hf
        · simp at hk
      · exact hi.valid k u hk
    · have key : ∀ (k : Nat) u, (w.frames.set f (h v))[k]? = some u →
          ∃ u', w.frames[k]? = some u' ∧ u'.group = u.group := by
        intro k u hk
        rw [List.getElem?_set] at hk
        split at hk
        · next e =>
          split at hk
          · simp only [Option.some.injEq] at hk
            subst hk
            exact ⟨v, e ▸ hf, (hg v).symm⟩
          · simp at hk
        · exact ⟨u, hk, rfl⟩
      intro k l u u' hk hl he
      obtain ⟨a, ha, ea⟩ := key k u hk
      obtain ⟨b, hb, eb⟩ := key l u' hl
      exact hi.own k l a b ha hb (by rw [ea, eb, he])

/-- Cloning the channels of a frame. -/
theorem cloneFrame_spec {w : World} (hi : Inv w) {f : Nat} {v : VF} (hf : w.frames[f]? = some v) :
    ∃ s', cloneFrame w v = some (.ok ({ w with store := s' }, { v with group := w.store.groups.length })) ∧
      Channels.abs s' = Channels.abs w.store ++ [((Channels.abs w.store)[v.group]?).getD (fun _ => none)] ∧
      Channels.Inv s' := by
  have hlt := hi.valid f v hf
  have hg : (Channels.abs w.store)[v.group]? =
      some (((Channels.abs w.store)[v.group]?).getD (fun _ => none)) := by
    rw [List.getElem?_eq_getElem (by rw [abs_length]; exact hlt)]
    rfl
  obtain ⟨s', e, h1, h2⟩ := Channels.clone_equal hi.store hg
  refine ⟨s', ?_, h1, h2⟩
  unfold cloneFrame
  rw [e, abs_length]

/-- Frames see only their own group, so new groups do not matter. -/
theorem value_append {s s' : Store} {v : VF} {m : SGroup} (h : Channels.abs s' = Channels.abs s ++ [m])
    (hv : v.group < s.groups.length) : value s' v = value s v := by
  unfold value
  rw [h, List.getElem?_append_left (by rw [abs_length]; exact hv)]

theorem value_new {s s' : Store} {v : VF} {m : SGroup} (h : Channels.abs s' = Channels.abs s ++ [m])
    (hm : m = ((Channels.abs s)[v.group]?).getD (fun _ => none)) :
    value s' { v with group := s.groups.length } = value s v := by
  unfold value
  simp only
  rw [h, List.getElem?_append_right (by rw [abs_length]; exact Nat.le_refl _), abs_length]
  simp [hm]

theorem values_append {w : World} (hi : Inv w) {s' : Store} {m : SGroup}
    (h : Channels.abs s' = Channels.abs w.store ++ [m]) : w.frames.map (value s') = values w := by
  unfold values
  apply List.map_congr_left
  intro v hv
  obtain ⟨k, hk⟩ := List.mem_iff_getElem?.mp hv
  exact value_append h (hi.valid k v hk)

/-- **C35 (frames are values).** Every call on frames does exactly what it should do if frames were values:
it succeeds or aborts as specified, returns what is specified, and changes the values of the frames as
specified — so in particular a copy starts with the value of its original and no call changes any frame but
the one it is called on. -/
theorem fstep_refines {w : World} (hi : Inv w) (op : FOp) :
    match fstep w op, specStep (values w) op with
    | some (.ok (w', o)), some (.ok (a', o')) => o = o' ∧ values w' = a' ∧ Inv w'
    | some .abort, some .abort => True
    | none, none => True
    | _, _ => False := by
  have weaken : ∀ (x : Option (Outcome (World × Out))) (y : Option (Outcome (List SFrame × Out))),
      (match x, y with
        | some (.ok (w', o)), some (.ok (a', o')) => o = o' ∧ values w' = a' ∧ Inv w'
        | none, none => True
        | _, _ => False) →
      match x, y with
        | some (.ok (w', o)), some (.ok (a', o')) => o = o' ∧ values w' = a' ∧ Inv w'
        | some .abort, some .abort => True
        | none, none => True
        | _, _ => False := by
    intro x y h
    rcases x with _ | (⟨w', o⟩ | _ | _ | _) <;> rcases y with _ | (⟨a', o'⟩ | _ | _ | _) <;>
      first | exact h | trivial
  have hlen : (values w).length = w.frames.length := by simp [values]
  cases op with
  | setTs f t => exact weaken _ _ (modify_refines hi f _ _ (fun _ => rfl) (fun _ => rfl))
  | setId f t => exact weaken _ _ (modify_refines hi f _ _ (fun _ => rfl) (fun _ => rfl))
  | setCam f t => exact weaken _ _ (modify_refines hi f _ _ (fun _ => rfl) (fun _ => rfl))
  | setRaw f t => exact weaken _ _ (modify_refines hi f _ _ (fun _ => rfl) (fun _ => rfl))
  | invalidate f => exact weaken _ _ (modify_refines hi f _ _ (fun _ => rfl) (fun _ => rfl))
  | new =>
    simp only [fstep, specStep]
    have habs : Channels.abs { w.store with groups := w.store.groups ++ [[]] } =
        Channels.abs w.store ++ [(fun _ => none : SGroup)] := by
      simp [Channels.abs]
      rfl
    have hst := Channels.step_refines hi.store (op := .newGroup) trivial
    simp only [Channels.step, Spec.step] at hst
    refine ⟨by rw [hlen], ?_, hst.2.2, ?_, ?_⟩
    · simp only [values]
      rw [List.map_append, values_append hi habs]
      simp only [List.map_cons, List.map_nil]
      congr 2
      unfold value
      simp only
      rw [habs, List.getElem?_append_right (by rw [abs_length]; exact Nat.le_refl _), abs_length]
      simp
    · intro k u hk
      simp only [List.length_append, List.length_singleton]
      rw [List.getElem?_append] at hk
      split at hk
      · have := hi.valid k u hk; omega
      · rw [List.getElem?_singleton] at hk
        split at hk
        · simp only [Option.some.injEq] at hk; subst hk; simp
        · simp at hk
    · intro k l u u' hk hl he
      simp only at hk hl
      rw [List.getElem?_append] at hk hl
      split at hk
      · split at hl
        · exact hi.own k l u u' hk hl he
        · rw [List.getElem?_singleton] at hl
          split at hl
          · simp only [Option.some.injEq] at hl; subst hl
            have := hi.valid k u hk
            simp only at he; omega
          · simp at hl
      · rw [List.getElem?_singleton] at hk
        split at hk
        · simp only [Option.some.injEq] at hk; subst hk
          split at hl
          · have := hi.valid l u' hl
            simp only at he; omega
          · rw [List.getElem?_singleton] at hl
            split at hl
            · omega
            · simp at hl
        · simp at hk
  | copy src =>
    simp only [fstep, specStep]
    rw [values_getElem?]
    cases hf : w.frames[src]? with
    | none => simp
    | some v =>
      obtain ⟨s', e, h1, h2⟩ := cloneFrame_spec hi hf
      have hsl : s'.groups.length = w.store.groups.length + 1 := by
        rw [← abs_length, h1]; simp [abs_length]
      simp only [e, Option.map_some, Outcome.bind]
      refine ⟨by rw [hlen], ?_, h2, ?_, ?_⟩
      · simp only [values]
        rw [List.map_append, values_append hi h1, List.map_cons, List.map_nil, value_new h1 rfl]
        rfl
      · intro k u hk
        simp only at hk ⊢
        rw [hsl]
        rw [List.getElem?_append] at hk
        split at hk
        · have := hi.valid k u hk; omega
        · rw [List.getElem?_singleton] at hk
          split at hk
          · simp only [Option.some.injEq] at hk; subst hk; simp
          · simp at hk
      · intro k l u u' hk hl he
        simp only at hk hl
        rw [List.getElem?_append] at hk hl
        split at hk
        · split at hl
          · exact hi.own k l u u' hk hl he
          · rw [List.getElem?_singleton] at hl
            split at hl
            · simp only [Option.some.injEq] at hl; subst hl
              have := hi.valid k u hk
              simp only at he; omega
            · simp at hl
        · rw [List.getElem?_singleton] at hk
          split at hk
          · simp only [Option.some.injEq] at hk; subst hk
            split at hl
            · have := hi.valid l u' hl
              simp only at he; omega
            · rw [List.getElem?_singleton] at hl
              split at hl
              · omega
              · simp at hl
          · simp at hk
  | assign dst src =>
    simp only [fstep, specStep]
    rw [values_getElem?, values_getElem?]
    cases hd : w.frames[dst]? with
    | none => simp
    | some d =>
      cases hf : w.frames[src]? with
      | none => simp
      | some v =>
        obtain ⟨s', e, h1, h2⟩ := cloneFrame_spec hi hf
        have hsl : s'.groups.length = w.store.groups.length + 1 := by
          rw [← abs_length, h1]; simp [abs_length]
        have hset : ∀ (k : Nat) u, (w.frames.set dst { v with group := w.store.groups.length })[k]? = some u →
            (k = dst ∧ u.group = w.store.groups.length) ∨ (k ≠ dst ∧ w.frames[k]? = some u) := by
          intro k u hk
          rw [List.getElem?_set] at hk
          split at hk
          · next e =>
            split at hk
            · simp only [Option.some.injEq] at hk
              subst hk
              exact Or.inl ⟨e.symm, rfl⟩
            · simp at hk
          · next e => exact Or.inr ⟨fun h => e h.symm, hk⟩
        simp only [e, Option.map_some, Outcome.bind]
        refine ⟨trivial, ?_, h2, ?_, ?_⟩
        · simp only [values]
          rw [List.map_set, values_append hi h1, value_new h1 rfl]
          rfl
        · intro k u hk
          simp only at hk ⊢
          rw [hsl]
          rcases hset k u hk with ⟨_, h⟩ | ⟨_, h⟩
          · omega
          · have := hi.valid k u h; omega
        · intro k l u u' hk hl he
          simp only at hk hl
          rcases hset k u hk with ⟨a, b⟩ | ⟨a, b⟩
          · rcases hset l u' hl with ⟨c, d⟩ | ⟨c, d⟩
            · omega
            · have := hi.valid l u' d; omega
          · rcases hset l u' hl with ⟨c, d⟩ | ⟨c, d⟩
            · have := hi.valid k u b; omega
            · exact hi.own k l u u' b d he
  | chan f c =>
    simp only [fstep, specStep]
    rw [values_getElem?]
    cases hf : w.frames[f]? with
    | none => simp
    | some v =>
      have hlt := hi.valid f v hf
      have hst := Channels.step_refines hi.store (toOp_unsharing v.group c)
      have hm : (Channels.abs w.store)[v.group]? = some (value w.store v).chans := by
        unfold value
        simp only
        rw [List.getElem?_eq_getElem (by rw [abs_length]; exact hlt)]
        rfl
      rw [spec_chan, hm] at hst
      simp only [Option.map_some] at hst ⊢
      revert hst
      rcases Channels.step w.store (c.toOp v.group) with _ | (⟨s', o⟩ | _ | _ | _) <;>
        rcases chanSpec (value w.store v).chans c with ⟨m', o'⟩ | _ | _ | _ <;> intro hst <;>
        try (first | exact hst.elim | trivial)
      obtain ⟨ho, ha, hinv⟩ := hst
      simp only [Outcome.bind]
      have hsl : s'.groups.length = w.store.groups.length := by
        rw [← abs_length, ← ha]; simp [abs_length]
      refine ⟨by rw [ho], ?_, hinv, ?_, hi.own⟩
      · apply List.ext_getElem?
        intro k
        rw [List.getElem?_set, values_getElem?]
        simp only
        by_cases hk : f = k
        · subst hk
          rw [if_pos rfl, hf, hlen, if_pos (List.getElem?_eq_some_iff.mp hf).1]
          simp only [Option.map_some, Option.some.injEq]
          unfold value
          rw [← ha, List.getElem?_set, if_pos rfl, if_pos (by rw [abs_length]; exact hlt)]
          rfl
        · rw [if_neg hk, values_getElem?]
          cases hu : w.frames[k]? with
          | none => rfl
          | some u =>
            simp only [Option.map_some, Option.some.injEq]
            unfold value
            rw [← ha, List.getElem?_set, if_neg (fun h => hk (hi.own f k v u hf hu h))]
      · intro k u hk
        simp only
        rw [hsl]
        exact hi.valid k u hk

/-! ## Histories and independence -/

/-- The frame a call may change. -/
def FOp.target : FOp → Option Nat
  | .new | .copy _ => none
  | .assign dst _ => some dst
  | .setTs f _ | .setId f _ | .setCam f _ | .setRaw f _ | .invalidate f => some f
  | .chan _ (.get _ _) | .chan _ (.has _) => none
  | .chan f _ => some f

/-- A history of successful calls. -/
inductive FRun : World → List FOp → World → Prop where
  | nil (w : World) : FRun w [] w
  | cons {w w1 w2 : World} {op : FOp} {ops : List FOp} {o : Out} (h : fstep w op = some (.ok (w1, o)))
      (t : FRun w1 ops w2) : FRun w (op :: ops) w2

/-- One successful call: what it does to the values. -/
theorem fstep_values {w w' : World} (hi : Inv w) {op : FOp} {o : Out} (h : fstep w op = some (.ok (w', o))) :
    specStep (values w) op = some (.ok (values w', o)) ∧ Inv w' := by
  have hr := fstep_refines hi op
  rw [h] at hr
  rcases hs : specStep (values w) op with _ | (⟨a', o'⟩ | _ | _ | _) <;> rw [hs] at hr <;>
    first | exact hr.elim | skip
  obtain ⟨h1, h2, h3⟩ := hr
  exact ⟨by rw [h1, h2], h3⟩

theorem getElem?_set_ne' {α : Type} {l : List α} {i j : Nat} {a : α} (h : i ≠ j) : (l.set i a)[j]? = l[j]? := by
  rw [List.getElem?_set, if_neg h]

theorem specStep_other {a a' : List SFrame} {op : FOp} {o : Out} (h : specStep a op = some (.ok (a', o)))
    {f : Nat} (hf : f < a.length) (ht : op.target ≠ some f) : a'[f]? = a[f]? ∧ a.length ≤ a'.length := by
  have hmod : ∀ (k : Nat) (g : SFrame → SFrame), specModify a k g = some (.ok (a', o)) → k ≠ f →
      a'[f]? = a[f]? ∧ a.length ≤ a'.length := by
    intro k g hm hk
    unfold specModify at hm
    rw [Option.map_eq_some_iff] at hm
    obtain ⟨v, _, hv⟩ := hm
    simp only [Outcome.ok.injEq, Prod.mk.injEq] at hv
    rw [← hv.1]
    exact ⟨getElem?_set_ne' hk, by simp⟩
  cases op with
  | new =>
    simp only [specStep, Option.some.injEq, Outcome.ok.injEq, Prod.mk.injEq] at h
    rw [← h.1, List.getElem?_append_left hf]
    exact ⟨rfl, by simp⟩
  | copy src =>
    simp only [specStep, Option.map_eq_some_iff, Outcome.ok.injEq, Prod.mk.injEq] at h
    obtain ⟨v, _, hv, _⟩ := h
    rw [← hv, List.getElem?_append_left hf]
    exact ⟨rfl, by simp⟩
  | assign d s =>
    simp only [FOp.target, ne_eq, Option.some.injEq] at ht
    simp only [specStep] at h
    split at h
    · simp only [Option.some.injEq, Outcome.ok.injEq, Prod.mk.injEq] at h
      rw [← h.1]
      exact ⟨getElem?_set_ne' ht, by simp⟩
    · simp at h
  | setTs k t => exact hmod k _ h (by simpa [FOp.target] using ht)
  | setId k t => exact hmod k _ h (by simpa [FOp.target] using ht)
  | setCam k t => exact hmod k _ h (by simpa [FOp.target] using ht)
  | setRaw k t => exact hmod k _ h (by simpa [FOp.target] using ht)
  | invalidate k => exact hmod k _ h (by simpa [FOp.target] using ht)
  | chan k c =>
    simp only [specStep, Option.map_eq_some_iff] at h
    obtain ⟨v, hv, h⟩ := h
    cases hc : chanSpec v.chans c with
    | ok p =>
      obtain ⟨m, o'⟩ := p
      rw [hc] at h
      simp only [Outcome.ok.injEq, Prod.mk.injEq] at h
      rw [← h.1]
      refine ⟨?_, by simp⟩
      by_cases hk : k = f
      · subst hk
        have hm : m = v.chans := by
          cases c with
          | get n t =>
            simp only [chanSpec] at hc
            split at hc
            · split at hc
              · simp only [Outcome.ok.injEq, Prod.mk.injEq] at hc; exact hc.1.symm
              · simp at hc
            · simp at hc
          | has n =>
            simp only [chanSpec, Outcome.ok.injEq, Prod.mk.injEq] at hc; exact hc.1.symm
          | add n t => exact absurd rfl ht
          | set n t x => exact absurd rfl ht
          | remove n => exact absurd rfl ht
        rw [hm]
        exact congrArg (·[k]?) (set_self hv)
      · exact getElem?_set_ne' hk
    | abort => rw [hc] at h; simp at h
    | ub => rw [hc] at h; simp at h
    | exc => rw [hc] at h; simp at h

/-- **C35 (isolation).** No history of calls changes a frame that is not the target of one of them. -/
theorem history_other {w w' : World} (hi : Inv w) {ops : List FOp} (hr : FRun w ops w') {f : Nat}
    (hf : f < (values w).length) (ht : ∀ op ∈ ops, op.target ≠ some f) :
    (values w')[f]? = (values w)[f]? ∧ Inv w' := by
  induction hr with
  | nil w => exact ⟨rfl, hi⟩
  | @cons w w1 w2 op ops o h t ih =>
    obtain ⟨h1, h2⟩ := fstep_values hi h
    obtain ⟨h3, h4⟩ := specStep_other h1 hf (ht op List.mem_cons_self)
    obtain ⟨h5, h6⟩ := ih h2 (by omega) (fun x hx => ht x (List.mem_cons_of_mem _ hx))
    exact ⟨by rw [h5, h3], h6⟩

/-- **C35 (copies of a frame).** A copy gets the value of its original.  Whatever is done afterwards without
calling a modifying function on the original leaves the original as it was, and whatever is done without
calling one on the copy leaves the copy as it was. -/
theorem copy_independent {w w1 w2 : World} (hi : Inv w) {src c : Nat}
    (h : fstep w (.copy src) = some (.ok (w1, .frame c))) {ops : List FOp} (hr : FRun w1 ops w2) :
    ∃ v, (values w)[src]? = some v ∧ (values w1)[src]? = some v ∧ (values w1)[c]? = some v ∧ c ≠ src ∧
      ((∀ op ∈ ops, op.target ≠ some src) → (values w2)[src]? = some v) ∧
      ((∀ op ∈ ops, op.target ≠ some c) → (values w2)[c]? = some v) := by
  obtain ⟨h1, h2⟩ := fstep_values hi h
  simp only [specStep, Option.map_eq_some_iff, Outcome.ok.injEq, Prod.mk.injEq, Out.frame.injEq] at h1
  obtain ⟨v, hv, ha, hc⟩ := h1
  have hlt := (List.getElem?_eq_some_iff.mp hv).1
  have h3 : (values w1)[src]? = some v := by rw [← ha, List.getElem?_append_left hlt, hv]
  have h4 : (values w1)[c]? = some v := by
    rw [← ha, ← hc, List.getElem?_append_right (Nat.le_refl _)]; simp
  refine ⟨v, hv, h3, h4, by omega, ?_, ?_⟩
  · intro ht
    rw [(history_other h2 hr (List.getElem?_eq_some_iff.mp h3).1 ht).1, h3]
  · intro ht
    rw [(history_other h2 hr (List.getElem?_eq_some_iff.mp h4).1 ht).1, h4]

/-- The same for assignment. -/
theorem assign_independent {w w1 w2 : World} (hi : Inv w) {dst src : Nat} {o : Out}
    (h : fstep w (.assign dst src) = some (.ok (w1, o))) {ops : List FOp} (hr : FRun w1 ops w2) :
    ∃ v, (values w)[src]? = some v ∧ (values w1)[src]? = some v ∧ (values w1)[dst]? = some v ∧
      ((∀ op ∈ ops, op.target ≠ some src) → (values w2)[src]? = some v) ∧
      ((∀ op ∈ ops, op.target ≠ some dst) → (values w2)[dst]? = some v) := by
  obtain ⟨h1, h2⟩ := fstep_values hi h
  simp only [specStep] at h1
  split at h1
  · next d v hd hv =>
    simp only [Option.some.injEq, Outcome.ok.injEq, Prod.mk.injEq] at h1
    have hdl := (List.getElem?_eq_some_iff.mp hd).1
    have h4 : (values w1)[dst]? = some v := by
      rw [← h1.1, List.getElem?_set, if_pos rfl, if_pos hdl]
    have h3 : (values w1)[src]? = some v := by
      by_cases e : dst = src
      · rw [← e]; exact h4
      · rw [← h1.1, getElem?_set_ne' e, hv]
    refine ⟨v, hv, h3, h4, ?_, ?_⟩
    · intro ht
      rw [(history_other h2 hr (List.getElem?_eq_some_iff.mp h3).1 ht).1, h3]
    · intro ht
      rw [(history_other h2 hr (List.getElem?_eq_some_iff.mp h4).1 ht).1, h4]
  · simp at h1

/-- Every image channel has a pixel buffer. -/
def ImagesOk (pixels : List (List UInt8)) (m : SGroup) : Prop :=
  ∀ n o b, m n = some o → o.val = .image b → b < pixels.length

/-- **C35 (equality).** Two frames with the same value compare equal, provided the comparison of cameras is
reflexive. -/
theorem same_value_equal {w : World} (hi : Inv w) {f g : Nat} {v : SFrame} (hne : f ≠ g)
    (hf : (values w)[f]? = some v) (hg : (values w)[g]? = some v) (himg : ImagesOk w.store.pixels v.chans)
    {camEq : Nat → Nat → Bool} (hcam : ∀ c, camEq c c = true) : frameEq camEq w f g = .ok true := by
  rw [values_getElem?, Option.map_eq_some_iff] at hf hg
  obtain ⟨a, ha, ea⟩ := hf
  obtain ⟨b, hb, eb⟩ := hg
  have hgne : a.group ≠ b.group := fun h => hne (hi.own f g a b ha hb h)
  have hal := hi.valid f a ha
  have hbl := hi.valid g b hb
  have hval : ∀ (u : VF) (hu : u.group < w.store.groups.length),
      (value w.store u).chans = Channels.denote w.store.objs w.store.groups[u.group] := by
    intro u hu
    simp [value, Channels.abs, List.getElem?_eq_getElem hu]
  have hda := hval a hal
  have hdb := hval b hbl
  rw [ea] at hda
  rw [eb] at hdb
  unfold frameEq
  rw [ha, hb]
  simp only [List.getElem?_eq_getElem hal, List.getElem?_eq_getElem hbl]
  rw [decide_eq_false hgne, Channels.same_contents_equal hi.store (List.getElem_mem hal) (List.getElem_mem hbl),
    Outcome.bind_ok]
  · have h1 : a.ts = b.ts := by
      have := congrArg SFrame.ts (ea.trans eb.symm); exact this
    have h2 : a.cam = b.cam := by
      have := congrArg SFrame.cam (ea.trans eb.symm); exact this
    have h3 : a.valid = b.valid := by
      have := congrArg SFrame.valid (ea.trans eb.symm); exact this
    rw [h1, h2, h3]
    cases b.cam with
    | none => simp [camSame]
    | some c => simp [camSame, hcam]
  · rw [← hda, ← hdb]
    intro n
    cases hn : v.chans n with
    | none => simp
    | some o =>
      simp only [true_and]
      cases ho : o.val with
      | matrix r c d => simp
      | image x =>
        have hx := himg n o x hn ho
        exact ⟨_, List.getElem?_eq_getElem hx, List.getElem?_eq_getElem hx⟩

theorem fstep_pixels {w w' : World} {src : Nat} {o : Out} (h : fstep w (.copy src) = some (.ok (w', o))) :
    w'.store.pixels = w.store.pixels := by
  simp only [fstep] at h
  split at h
  · simp at h
  · next v hv =>
    unfold cloneFrame at h
    simp only [Channels.step] at h
    cases hg : w.store.groups[v.group]? with
    | none => rw [hg] at h; simp at h
    | some m =>
      rw [hg] at h
      simp only [Outcome.bind, Option.some.injEq, Outcome.ok.injEq, Prod.mk.injEq] at h
      rw [← h.1]

/-- **C35 (a copy compares equal).** -/
theorem copy_equal {w w1 : World} (hi : Inv w) {src c : Nat}
    (h : fstep w (.copy src) = some (.ok (w1, .frame c)))
    (himg : ∀ v, (values w)[src]? = some v → ImagesOk w.store.pixels v.chans)
    {camEq : Nat → Nat → Bool} (hcam : ∀ c, camEq c c = true) :
    frameEq camEq w1 src c = .ok true ∧ frameEq camEq w1 c src = .ok true := by
  obtain ⟨v, h1, h2, h3, hne, _, _⟩ := copy_independent hi h (FRun.nil w1)
  have hv := himg v h1
  rw [← fstep_pixels h] at hv
  have hi' := (fstep_values hi h).2
  exact ⟨same_value_equal hi' (Ne.symm hne) h2 h3 hv hcam, same_value_equal hi' hne h3 h2 hv hcam⟩

/-- Non-vacuity and an instance: a frame with a channel, copied; the copy's channel and time are changed, the
original keeps its own. -/
example : ∃ w w1 w2, FRun World.empty [.new, .chan 0 (.add "A" 7), .setTs 0 5] w ∧
    fstep w (.copy 0) = some (.ok (w1, .frame 1)) ∧
    FRun w1 [.chan 1 (.set "A" 7 (.matrix 1 1 [4])), .setTs 1 9] w2 ∧
    fstep w2 (.chan 0 (.get "A" 7)) = some (.ok (w2, .chan (.val defaultVal))) ∧
    (w2.frames.map VF.ts) = [5, 9] :=
  ⟨_, _, _, .cons rfl (.cons rfl (.cons rfl (.nil _))), rfl, .cons rfl (.cons rfl (.nil _)), rfl, rfl⟩

/-- **C35 refuted for pixels.** A frame with an image, its copy, and a write to the pixels through the copy:
the original shows the changed pixels. -/
theorem copy_shares_pixels_refuted :
    ∃ w w1 : World, ∃ s2 : Store, w.frames.length = 1 ∧ fstep w (.copy 0) = some (.ok (w1, .frame 1)) ∧
      Channels.writePixels w1.store 1 "RAW_IMAGE" 9 [200] = some (.ok s2) ∧
      Channels.readPixels w.store 0 "RAW_IMAGE" = some [100] ∧
      Channels.readPixels s2 0 "RAW_IMAGE" = some [200] :=
  ⟨⟨⟨[⟨9, .image 0⟩], [[100]], [[("RAW_IMAGE", 0)]]⟩, [⟨0, 0, none, none, 0, true⟩], []⟩, _, _,
    rfl, rfl, rfl, rfl, rfl⟩

/-- Deviation: `operator==` ignores the id and the raw camera of a frame. -/
theorem equality_ignores_id_refuted :
    ∃ w, FRun World.empty [.new, .new, .setId 0 1, .setRaw 0 (some 3)] w ∧
      frameEq (fun a b => a == b) w 0 1 = .ok true ∧ (w.frames.map VF.id) = [1, 0] ∧
      (w.frames.map VF.raw) = [some 3, none] :=
  ⟨_, .cons rfl (.cons rfl (.cons rfl (.cons rfl (.nil _)))), rfl, rfl, rfl⟩

end Verif.VisualFrame.Copy
