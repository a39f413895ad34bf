import Verif.Channels.Model

/-!
# C15: a channel group is a typed map

Specification: a list of partial functions from names to typed values (`Spec`), with the obvious
operations.  The implementation (heap objects and pointers) is shown to behave exactly like it.
-/

namespace Verif.Channels

open Verif (Outcome)

/-! ### Specification -/

/-- A group, as the user thinks of it. -/
abbrev SGroup := String → Option Obj

/-- All groups. -/
abbrev Spec := List SGroup

def SGroup.update (f : SGroup) (n : String) (v : Option Obj) : SGroup := fun x => if x = n then v else f x

/-- Effect of each call on the maps. -/
def Spec.step (a : Spec) : Op → Option (Outcome (Spec × Out))
  | .newGroup => some (.ok (a ++ [((fun _ => none) : SGroup)], .group a.length))
  | .add g n t => a[g]?.map fun f =>
      if (f n).isSome then .abort
      else .ok (a.set g (f.update n (some ⟨t, defaultVal⟩)), .val defaultVal)
  | .get g n t => a[g]?.map fun f =>
      match f n with
      | some o => if o.ty = t then .ok (a, .val o.val) else .abort
      | none => .abort
  | .set g n t v => a[g]?.map fun f =>
      match f n with
      | some o => if o.ty = t then .ok (a.set g (f.update n (some ⟨t, v⟩)), .unit) else .abort
      | none => .abort
  | .has g n => a[g]?.map fun f => .ok (a, .bool (f n).isSome)
  | .remove g n => a[g]?.map fun f =>
      if (f n).isSome then .ok (a.set g (f.update n none), .unit) else .abort
  | .clone g => a[g]?.map fun f => .ok (a ++ [f], .group a.length)
  | .assign d g =>
    match a[d]?, a[g]? with
    | some _, some f => some (.ok (a.set d f, .unit))
    | _, _ => none

/-! ### The map a group denotes -/

/-- The map denoted by a group in a heap. -/
def denote (objs : List Obj) (m : Group) : SGroup := fun n => (m.lookup n).bind fun i => objs[i]?

/-- The maps of all groups. -/
def abs (s : Store) : Spec := s.groups.map (denote s.objs)

/-- Names are unique in a group, pointers are valid, and no object is shared. -/
structure Inv (s : Store) : Prop where
  keys : ∀ m ∈ s.groups, (m.map (·.1)).Nodup
  valid : ∀ m ∈ s.groups, ∀ e ∈ m, e.2 < s.objs.length
  unshared : ∀ g h : Nat, ∀ m m' : Group, s.groups[g]? = some m → s.groups[h]? = some m' →
    ∀ n n' i, m.lookup n = some i → m'.lookup n' = some i → g = h ∧ n = n'

theorem lookup_mem {m : Group} {n : String} {i : Nat} (h : m.lookup n = some i) : (n, i) ∈ m := by
  induction m with
  | nil => simp at h
  | cons e m ih =>
    obtain ⟨k, j⟩ := e
    rw [List.lookup_cons] at h
    by_cases hk : n = k
    · subst hk
      simp at h
      simp [h]
    · have : (n == k) = false := by simpa using hk
      simp only [this] at h
      exact List.mem_cons_of_mem _ (ih h)

theorem lookup_cons (k n : String) (i : Nat) (m : Group) :
    List.lookup n ((k, i) :: m) = if n = k then some i else m.lookup n := by
  rw [List.lookup_cons]
  by_cases h : n = k
  · simp [h]
  · have : (n == k) = false := by simpa using h
    simp [this, h]

theorem lookup_filter (m : Group) (n x : String) :
    (m.filter (fun e => e.1 ≠ n)).lookup x = if x = n then none else m.lookup x := by
  induction m with
  | nil => simp
  | cons e m ih =>
    obtain ⟨k, j⟩ := e
    rw [List.filter_cons, lookup_cons]
    by_cases hk : k = n
    · subst hk
      simp only [ne_eq, not_true, decide_false, Bool.false_eq_true, if_false]
      rw [ih]
      by_cases hx : x = k <;> simp [hx]
    · simp only [ne_eq, hk, not_false_eq_true, decide_true, if_true]
      rw [lookup_cons, ih]
      by_cases hx : x = n
      · subst hx; simp [Ne.symm hk]
      · simp [hx]

theorem denote_append {objs : List Obj} {m : Group} (h : ∀ e ∈ m, e.2 < objs.length)
    (more : List Obj) : denote (objs ++ more) m = denote objs m := by
  funext n
  unfold denote
  cases hl : m.lookup n with
  | none => rfl
  | some i =>
    have := h _ (lookup_mem hl)
    simp only [Option.bind_some]
    rw [List.getElem?_append_left this]

theorem abs_getElem? (s : Store) (g : Nat) : (abs s)[g]? = s.groups[g]?.map (denote s.objs) := by
  simp [abs]

/-- What cloning a group does to the heap. -/
theorem cloneLoop_spec (m : Group) (objs : List Obj) (hv : ∀ e ∈ m, e.2 < objs.length) :
    ∃ more, (cloneLoop objs m).1 = objs ++ more ∧
      (cloneLoop objs m).2.map (·.1) = m.map (·.1) ∧
      (∀ e ∈ (cloneLoop objs m).2, objs.length ≤ e.2 ∧ e.2 < objs.length + more.length) ∧
      ((cloneLoop objs m).2.map (·.2)).Nodup ∧
      denote (objs ++ more) (cloneLoop objs m).2 = denote objs m := by
  induction m generalizing objs with
  | nil => exact ⟨[], by simp [cloneLoop], rfl, by simp [cloneLoop], by simp [cloneLoop],
      by funext; simp [cloneLoop, denote]⟩
  | cons e m ih =>
    obtain ⟨k, i⟩ := e
    have hi : i < objs.length := hv (k, i) (by simp)
    have ho : objs[i]? = some objs[i] := List.getElem?_eq_getElem hi
    obtain ⟨more, h1, h2, h3, h4, h5⟩ := ih (objs ++ [⟨objs[i].ty, cloneVal objs[i].val⟩])
      (fun e he => by
        have := hv e (by simp [he])
        rw [List.length_append]; simp; omega)
    simp only [cloneLoop, ho]
    refine ⟨⟨objs[i].ty, cloneVal objs[i].val⟩ :: more, by rw [h1]; simp, by simp [h2], ?_, ?_, ?_⟩
    · intro e he
      rcases List.mem_cons.mp he with rfl | he
      · simp
      · have := h3 e he
        simp only [List.length_append, List.length_cons, List.length_nil] at this ⊢
        omega
    · rw [List.map_cons, List.nodup_cons]
      refine ⟨?_, h4⟩
      intro hm
      obtain ⟨e, he, hee⟩ := List.mem_map.mp hm
      have := (h3 e he).1
      simp only [List.length_append, List.length_cons, List.length_nil] at this
      omega
    · have hcv : cloneVal objs[i].val = objs[i].val := by cases objs[i].val <;> rfl
      funext n
      have h5' := congrFun h5 n
      unfold denote at h5' ⊢
      rw [lookup_cons, lookup_cons]
      by_cases hn : n = k
      · simp only [hn, if_true, Option.bind_some]
        rw [List.getElem?_append_right (Nat.le_refl _), ho]
        simp [hcv]
      · simp only [hn, if_false]
        rw [show objs ++ ⟨objs[i].ty, cloneVal objs[i].val⟩ :: more
          = objs ++ [⟨objs[i].ty, cloneVal objs[i].val⟩] ++ more by simp, h5']
        cases hl : m.lookup n with
        | none => rfl
        | some j =>
          have := hv (n, j) (List.mem_cons_of_mem _ (lookup_mem hl))
          simp only [Option.bind_some]
          rw [List.getElem?_append_left this]

theorem nodup_snd_lookup {m : Group} (h : (m.map (·.2)).Nodup) {n n' : String} {i : Nat}
    (h1 : m.lookup n = some i) (h2 : m.lookup n' = some i) : n = n' := by
  induction m with
  | nil => simp at h1
  | cons e m ih =>
    obtain ⟨k, j⟩ := e
    rw [List.map_cons, List.nodup_cons] at h
    have hmem : ∀ {x}, m.lookup x = some j → False := fun hx =>
      h.1 (List.mem_map.mpr ⟨_, lookup_mem hx, rfl⟩)
    rw [lookup_cons] at h1 h2
    by_cases a : n = k <;> by_cases b : n' = k
    · rw [a, b]
    · simp only [a, b, if_true, if_false, Option.some.injEq] at h1 h2
      subst h1; exact (hmem h2).elim
    · simp only [a, b, if_true, if_false, Option.some.injEq] at h1 h2
      subst h2; exact (hmem h1).elim
    · simp only [a, b, if_false] at h1 h2
      exact ih h.2 h1 h2

/-- Calls other than the sharing copy. -/
def Op.Unsharing : Op → Prop
  | .assign _ _ => False
  | _ => True

theorem getElem?_mem' {α : Type} {l : List α} {i : Nat} {a : α} (h : l[i]? = some a) : a ∈ l :=
  List.mem_of_getElem? h

theorem getElem?_set' {α : Type} (l : List α) (g h : Nat) (a : α) (b : α) (hb : l[g]? = some b) :
    (l.set g a)[h]? = if g = h then some a else l[h]? := by
  obtain ⟨hg, _⟩ := List.getElem?_eq_some_iff.mp hb
  rw [List.getElem?_set]
  by_cases e : g = h
  · subst e; simp [hg]
  · simp [e]

theorem abs_set {s : Store} {g : Nat} {m m' : Group} (objs : List Obj) (hm : s.groups[g]? = some m)
    (hother : ∀ h m2, s.groups[h]? = some m2 → g ≠ h → denote objs m2 = denote s.objs m2) :
    abs { s with objs := objs, groups := s.groups.set g m' } = (abs s).set g (denote objs m') := by
  apply List.ext_getElem?
  intro h
  rw [abs_getElem?]
  have hb : (abs s)[g]? = some (denote s.objs m) := by rw [abs_getElem?, hm]; rfl
  rw [getElem?_set' _ _ _ _ _ hm, getElem?_set' _ _ _ _ _ hb]
  by_cases e : g = h
  · simp [e]
  · simp only [e, if_false]
    rw [abs_getElem?]
    cases hh : s.groups[h]? with
    | none => rfl
    | some m2 => simp [hother h m2 hh e]

/-- **C15.** One call on a program that never used the sharing copy behaves exactly like the map
operation: same success or abort, same result, and the maps afterwards are the specified ones.
Pointers stay unshared, so this holds for every history (`run_refines`). -/
theorem step_refines {s : Store} (hi : Inv s) {op : Op} (hop : op.Unsharing) :
    match step s op, (abs s).step op with
    | some (.ok (s', o)), some (.ok (a', o')) => o = o' ∧ a' = abs s' ∧ Inv s'
    | some .abort, some .abort => True
    | none, none => True
    | _, _ => False := by
  cases op with
  | assign d g => exact hop.elim
  | newGroup =>
    simp only [step, Spec.step]
    refine ⟨by simp [abs], ?_, ?_, ?_, ?_⟩
    · simp only [abs, List.map_append, List.map_cons, List.map_nil]
      congr 1
    · intro m hm
      rcases List.mem_append.mp hm with h | h
      · exact hi.keys m h
      · simp only [List.mem_singleton] at h; subst h; simp
    · intro m hm
      rcases List.mem_append.mp hm with h | h
      · exact hi.valid m h
      · simp only [List.mem_singleton] at h; subst h; simp
    · intro g h m m' hg hh n n' i h1 h2
      have key : ∀ {k : Nat} {x : Group} {y : String}, (s.groups ++ [[]])[k]? = some x →
          x.lookup y = some i → s.groups[k]? = some x := by
        intro k x y hk hl
        rw [List.getElem?_append] at hk
        split at hk
        · exact hk
        · rw [List.getElem?_singleton] at hk
          split at hk
          · simp only [Option.some.injEq] at hk; subst hk; simp at hl
          · simp at hk
      exact hi.unshared g h m m' (key hg h1) (key hh h2) n n' i h1 h2
  | add g n t =>
    simp only [step, Spec.step, abs_getElem?]
    cases hm : s.groups[g]? with
    | none => simp
    | some m =>
      have hmm := getElem?_mem' hm
      simp only [Option.map_some]
      cases hl : m.lookup n with
      | some i =>
        have hv := hi.valid m hmm _ (lookup_mem hl)
        have : (denote s.objs m n).isSome = true := by
          simp only [denote, hl, Option.bind_some]
          rw [List.getElem?_eq_getElem hv]; rfl
        simp [this]
      | none =>
        have hd : denote s.objs m n = none := by simp [denote, hl]
        simp only [hd, Option.isSome_none, Bool.false_eq_true, if_false, true_and]
        have hnew : denote (s.objs ++ [⟨t, defaultVal⟩]) ((n, s.objs.length) :: m)
            = SGroup.update (denote s.objs m) n (some ⟨t, defaultVal⟩) := by
          funext x
          simp only [SGroup.update]
          by_cases hx : x = n
          · simp [denote, hx]
          · have h1 := congrFun (denote_append (hi.valid m hmm) [⟨t, defaultVal⟩]) x
            simp only [denote] at h1
            simp [denote, lookup_cons, hx, h1]
        refine ⟨?_, ?_, ?_, ?_⟩
        · rw [abs_set (s.objs ++ [⟨t, defaultVal⟩]) hm
            (fun h m2 hh _ => denote_append (hi.valid m2 (getElem?_mem' hh)) _), hnew]
        · intro m' hm'
          rcases List.mem_or_eq_of_mem_set hm' with h | rfl
          · exact hi.keys m' h
          · rw [List.map_cons, List.nodup_cons]
            refine ⟨?_, hi.keys m hmm⟩
            intro hc
            obtain ⟨⟨k, j⟩, he, hk⟩ := List.mem_map.mp hc
            simp only at hk
            subst hk
            have : ∀ (l : Group), (k, j) ∈ l → l.lookup k ≠ none := by
              intro l
              induction l with
              | nil => simp
              | cons e l ih =>
                obtain ⟨a, b⟩ := e
                intro hmem
                rw [lookup_cons]
                by_cases ha : k = a
                · simp [ha]
                · simp only [ha, if_false]
                  exact ih (by simpa [ha] using hmem)
            exact this m he hl
        · intro m' hm' e he
          rw [List.length_append]
          rcases List.mem_or_eq_of_mem_set hm' with h | rfl
          · have := hi.valid m' h e he; omega
          · rcases List.mem_cons.mp he with rfl | he
            · simp
            · have := hi.valid m hmm e he; omega
        · intro a b m1 m2 h1 h2 x y i hx hy
          simp only at h1 h2
          rw [getElem?_set' _ _ _ _ _ hm] at h1 h2
          have fresh : ∀ {k : Nat} {q : Group} {z : String}, s.groups[k]? = some q →
              q.lookup z = some s.objs.length → False := by
            intro k q z hk hz
            have := hi.valid q (getElem?_mem' hk) _ (lookup_mem hz)
            simp at this
          by_cases ea : g = a <;> by_cases eb : g = b
          · simp only [ea, if_true, Option.some.injEq] at h1
            simp only [eb, if_true, Option.some.injEq] at h2
            subst h1; subst h2
            rw [lookup_cons] at hx hy
            refine ⟨ea.symm.trans eb, ?_⟩
            by_cases hxn : x = n <;> by_cases hyn : y = n
            · rw [hxn, hyn]
            · simp only [hxn, hyn, if_true, if_false, Option.some.injEq] at hx hy
              subst hx; exact (fresh hm hy).elim
            · simp only [hxn, hyn, if_true, if_false, Option.some.injEq] at hx hy
              subst hy; exact (fresh hm hx).elim
            · simp only [hxn, hyn, if_false] at hx hy
              exact (hi.unshared g g m m hm hm x y i hx hy).2
          · simp only [ea, if_true, Option.some.injEq] at h1
            simp only [eb, if_false] at h2
            subst h1
            rw [lookup_cons] at hx
            by_cases hxn : x = n
            · simp only [hxn, if_true, Option.some.injEq] at hx
              subst hx; exact (fresh h2 hy).elim
            · simp only [hxn, if_false] at hx
              have := hi.unshared g b m m2 hm h2 x y i hx hy
              exact absurd this.1 eb
          · simp only [ea, if_false] at h1
            simp only [eb, if_true, Option.some.injEq] at h2
            subst h2
            rw [lookup_cons] at hy
            by_cases hyn : y = n
            · simp only [hyn, if_true, Option.some.injEq] at hy
              subst hy; exact (fresh h1 hx).elim
            · simp only [hyn, if_false] at hy
              have := hi.unshared a g m1 m h1 hm x y i hx hy
              exact absurd this.1.symm ea
          · simp only [ea, if_false] at h1
            simp only [eb, if_false] at h2
            exact hi.unshared a b m1 m2 h1 h2 x y i hx hy
  | get g n t =>
    simp only [step, Spec.step, abs_getElem?]
    cases hm : s.groups[g]? with
    | none => simp
    | some m =>
      have hmm := getElem?_mem' hm
      simp only [Option.map_some, resolve]
      cases hl : m.lookup n with
      | none => simp [denote, hl]
      | some i =>
        have hv := hi.valid m hmm _ (lookup_mem hl)
        have ho : s.objs[i]? = some s.objs[i] := List.getElem?_eq_getElem hv
        simp only [denote, hl, Option.bind_some, ho]
        by_cases ht : s.objs[i].ty = t
        · simp only [ht, if_true, Outcome.bind_ok, ho]
          exact ⟨trivial, trivial, hi⟩
        · simp [ht]
  | set g n t v =>
    simp only [step, Spec.step, abs_getElem?]
    cases hm : s.groups[g]? with
    | none => simp
    | some m =>
      have hmm := getElem?_mem' hm
      simp only [Option.map_some, resolve]
      cases hl : m.lookup n with
      | none => simp [denote, hl]
      | some i =>
        have hv := hi.valid m hmm _ (lookup_mem hl)
        have ho : s.objs[i]? = some s.objs[i] := List.getElem?_eq_getElem hv
        have hdn : denote s.objs m n = some s.objs[i] := by simp [denote, hl, ho]
        simp only [hdn, ho]
        by_cases ht : s.objs[i].ty = t
        · simp only [ht, if_true, Outcome.bind_ok, true_and]
          have hset : ∀ j, (s.objs.set i ⟨t, v⟩)[j]? = if i = j then some ⟨t, v⟩ else s.objs[j]? :=
            fun j => getElem?_set' _ _ _ _ _ ho
          refine ⟨?_, hi.keys, fun m hm e he => by simpa using hi.valid m hm e he, hi.unshared⟩
          have hself : denote (s.objs.set i ⟨t, v⟩) m
              = SGroup.update (denote s.objs m) n (some ⟨t, v⟩) := by
            funext x
            simp only [SGroup.update]
            by_cases hx : x = n
            · subst hx; simp [denote, hl, hset]
            · simp only [hx, if_false, denote]
              cases hlx : m.lookup x with
              | none => rfl
              | some j =>
                have : i ≠ j := by
                  intro e; subst e
                  exact hx (hi.unshared g g m m hm hm x n i hlx hl).2
                simp [hset, this]
          have hoth : ∀ h m2, s.groups[h]? = some m2 → g ≠ h →
              denote (s.objs.set i ⟨t, v⟩) m2 = denote s.objs m2 := by
            intro h m2 hh hne
            funext x
            simp only [denote]
            cases hlx : m2.lookup x with
            | none => rfl
            | some j =>
              have : i ≠ j := by
                intro e; subst e
                exact hne (hi.unshared g h m m2 hm hh n x i hl hlx).1
              simp [hset, this]
          have := abs_set (m' := m) (s.objs.set i ⟨t, v⟩) hm hoth
          rw [hself] at this
          rw [← this]
          have hsame : s.groups.set g m = s.groups := by
            apply List.ext_getElem?
            intro h
            rw [getElem?_set' _ _ _ _ _ hm]
            by_cases e : g = h
            · subst e; simp [hm]
            · simp [e]
          rw [hsame]
        · simp [ht]
  | has g n =>
    simp only [step, Spec.step, abs_getElem?]
    cases hm : s.groups[g]? with
    | none => simp
    | some m =>
      have hmm := getElem?_mem' hm
      simp only [Option.map_some]
      refine ⟨?_, trivial, hi⟩
      cases hl : m.lookup n with
      | none => simp [denote, hl]
      | some i =>
        have hv := hi.valid m hmm _ (lookup_mem hl)
        simp only [denote, hl, Option.bind_some, Option.isSome_some]
        rw [List.getElem?_eq_getElem hv]; rfl
  | remove g n =>
    simp only [step, Spec.step, abs_getElem?]
    cases hm : s.groups[g]? with
    | none => simp
    | some m =>
      have hmm := getElem?_mem' hm
      simp only [Option.map_some]
      cases hl : m.lookup n with
      | none => simp [denote, erase, hl]
      | some i =>
        have hv := hi.valid m hmm _ (lookup_mem hl)
        have hsome : (denote s.objs m n).isSome = true := by
          simp only [denote, hl, Option.bind_some]
          rw [List.getElem?_eq_getElem hv]; rfl
        simp only [erase, hl, hsome, Option.isSome_some, if_true, true_and]
        have hnew : denote s.objs (m.filter (fun e => e.1 ≠ n))
            = SGroup.update (denote s.objs m) n none := by
          funext x
          simp only [SGroup.update, denote, lookup_filter]
          by_cases hx : x = n <;> simp [hx]
        refine ⟨?_, ?_, ?_, ?_⟩
        · have := abs_set (m' := m.filter (fun e => e.1 ≠ n)) s.objs hm (fun _ _ _ _ => rfl)
          rw [hnew] at this
          exact this.symm
        · intro m' hm'
          rcases List.mem_or_eq_of_mem_set hm' with h | rfl
          · exact hi.keys m' h
          · exact (hi.keys m hmm).sublist ((List.filter_sublist (p := fun e : String × Nat => decide (e.1 ≠ n))).map _)
        · intro m' hm' e he
          rcases List.mem_or_eq_of_mem_set hm' with h | rfl
          · exact hi.valid m' h e he
          · exact hi.valid m hmm e (List.mem_filter.mp he).1
        · intro a b m1 m2 h1 h2 x y j hx hy
          simp only at h1 h2
          rw [getElem?_set' _ _ _ _ _ hm] at h1 h2
          have key : ∀ {k : Nat} {q : Group} {z : String},
              (if g = k then some (m.filter (fun e => e.1 ≠ n)) else s.groups[k]?) = some q →
              q.lookup z = some j → ∃ q', s.groups[k]? = some q' ∧ q'.lookup z = some j := by
            intro k q z hk hz
            by_cases e : g = k
            · simp only [e, if_true, Option.some.injEq] at hk
              subst hk
              rw [lookup_filter] at hz
              split at hz
              · simp at hz
              · exact ⟨m, e ▸ hm, hz⟩
            · simp only [e, if_false] at hk
              exact ⟨q, hk, hz⟩
          obtain ⟨q1, a1, b1⟩ := key h1 hx
          obtain ⟨q2, a2, b2⟩ := key h2 hy
          exact hi.unshared a b q1 q2 a1 a2 x y j b1 b2
  | clone g =>
    simp only [step, Spec.step, abs_getElem?]
    cases hm : s.groups[g]? with
    | none => simp
    | some m =>
      have hmm := getElem?_mem' hm
      simp only [Option.map_some]
      obtain ⟨more, h1, h2, h3, h4, h5⟩ := cloneLoop_spec m s.objs (hi.valid m hmm)
      refine ⟨by simp [abs], ?_, ?_, ?_, ?_⟩
      · simp only [abs, List.map_append, List.map_cons, List.map_nil, h1, h5]
        congr 1
        apply List.map_congr_left
        intro m' hm'
        exact (denote_append (hi.valid m' hm') more).symm
      · intro m' hm'
        rcases List.mem_append.mp hm' with h | h
        · exact hi.keys m' h
        · simp only [List.mem_singleton] at h
          rw [h, h2]; exact hi.keys m hmm
      · intro m' hm' e he
        simp only [h1, List.length_append]
        rcases List.mem_append.mp hm' with h | h
        · have := hi.valid m' h e he; omega
        · simp only [List.mem_singleton] at h
          exact (h3 e (h ▸ he)).2
      · intro a b m1 m2 ha hb x y i hx hy
        simp only at ha hb
        have key : ∀ {k : Nat} {q : Group} {z : String},
            (s.groups ++ [(cloneLoop s.objs m).2])[k]? = some q → q.lookup z = some i →
            (s.groups[k]? = some q ∧ i < s.objs.length) ∨
              (k = s.groups.length ∧ q = (cloneLoop s.objs m).2 ∧ s.objs.length ≤ i) := by
          intro k q z hk hz
          rw [List.getElem?_append] at hk
          split at hk
          · exact .inl ⟨hk, hi.valid q (getElem?_mem' hk) _ (lookup_mem hz)⟩
          · next hlt =>
            rw [List.getElem?_singleton] at hk
            split at hk
            · next he =>
              simp only [Option.some.injEq] at hk
              refine .inr ⟨by omega, hk.symm, ?_⟩
              exact (h3 _ (hk ▸ lookup_mem hz)).1
            · simp at hk
        rcases key ha hx with ⟨a1, a2⟩ | ⟨a1, a2, a3⟩ <;> rcases key hb hy with ⟨b1, b2⟩ | ⟨b1, b2, b3⟩
        · exact hi.unshared a b m1 m2 a1 b1 x y i hx hy
        · omega
        · omega
        · subst a2; subst b2
          exact ⟨a1.trans b1.symm, nodup_snd_lookup h4 hx hy⟩

/-- Running a list of calls; stops at the first one that aborts. -/
def run (s : Store) : List Op → Option (Outcome (Store × List Out))
  | [] => some (.ok (s, []))
  | op :: ops =>
    match step s op with
    | none => none
    | some (.ok (s', o)) =>
      match run s' ops with
      | some (.ok (s'', os)) => some (.ok (s'', o :: os))
      | r => r
    | some .abort => some .abort
    | some .ub => some .ub
    | some .exc => some .exc

/-- The same for the specification. -/
def Spec.run (a : Spec) : List Op → Option (Outcome (Spec × List Out))
  | [] => some (.ok (a, []))
  | op :: ops =>
    match a.step op with
    | none => none
    | some (.ok (a', o)) =>
      match Spec.run a' ops with
      | some (.ok (a'', os)) => some (.ok (a'', o :: os))
      | r => r
    | some .abort => some .abort
    | some .ub => some .ub
    | some .exc => some .exc

/-- **C15, whole histories.** For every sequence of calls (without the sharing copy) the program
returns exactly what the specified maps return, call by call, and aborts exactly when they do. -/
theorem run_refines (ops : List Op) (hops : ∀ op ∈ ops, op.Unsharing) {s : Store} (hi : Inv s) :
    match run s ops, (abs s).run ops with
    | some (.ok (s', os)), some (.ok (a', os')) => os = os' ∧ a' = abs s' ∧ Inv s'
    | some .abort, some .abort => True
    | none, none => True
    | _, _ => False := by
  induction ops generalizing s with
  | nil => exact ⟨rfl, rfl, hi⟩
  | cons op ops ih =>
    have h := step_refines hi (hops op (by simp))
    simp only [run, Spec.run]
    revert h
    rcases step s op with _ | (⟨s', o⟩ | _ | _ | _) <;>
      rcases (abs s).step op with _ | (⟨a', o'⟩ | _ | _ | _) <;> intro h <;>
      try (first | exact h | trivial)
    obtain ⟨rfl, rfl, hi'⟩ := h
    have := ih (fun x hx => hops x (by simp [hx])) hi'
    revert this
    simp only
    rcases run s' ops with _ | (⟨s'', os⟩ | _ | _ | _) <;>
      rcases (abs s').run ops with _ | (⟨a'', os'⟩ | _ | _ | _) <;> intro h <;>
      try (first | exact h | trivial)
    obtain ⟨rfl, rfl, hi''⟩ := h
    exact ⟨rfl, rfl, hi''⟩

theorem inv_empty : Inv Store.empty :=
  ⟨by simp [Store.empty], by simp [Store.empty], by simp [Store.empty]⟩

/-- A history with two groups, a clone, and a change of the clone that the original does not see. -/
example : run Store.empty
    [.newGroup, .add 0 "A" 7, .set 0 "A" 7 (.matrix 1 1 [3]), .clone 0,
      .set 1 "A" 7 (.matrix 1 1 [4]), .get 0 "A" 7, .get 1 "A" 7, .remove 1 "A", .has 0 "A"]
    = some (.ok (⟨[⟨7, .matrix 1 1 [3]⟩, ⟨7, .matrix 1 1 [4]⟩], [], [[("A", 0)], []]⟩,
        [.group 0, .val defaultVal, .unit, .group 1, .unit, .val (.matrix 1 1 [3]),
          .val (.matrix 1 1 [4]), .unit, .bool true])) := by rfl

/-- Calls that work on group `g`. -/
def Op.touches (g : Nat) : Op → Prop
  | .add h _ _ | .set h _ _ _ | .remove h _ | .assign h _ => h = g
  | _ => False

/-- Calls that change channel `n` of group `g`. -/
def Op.touchesName (g : Nat) (n : String) : Op → Prop
  | .add h k _ | .set h k _ _ | .remove h k => h = g ∧ k = n
  | .assign h _ => h = g
  | _ => False

/-- **C15, isolation.** A call that does not name channel `n` of group `g` leaves what that channel
holds unchanged — in particular changes of another channel, of the original or of a clone. -/
theorem other_channels_unchanged {s s' : Store} (hi : Inv s) {op : Op} (hop : op.Unsharing) {o : Out}
    (hs : step s op = some (.ok (s', o))) {g : Nat} {n : String} (ht : ¬ op.touchesName g n)
    {f : SGroup} (hf : (abs s)[g]? = some f) : ∃ f', (abs s')[g]? = some f' ∧ f' n = f n := by
  have h := step_refines hi hop
  rw [hs] at h
  have hg : g < (abs s).length := (List.getElem?_eq_some_iff.mp hf).1
  cases hsp : (abs s).step op with
  | none => simp [hsp] at h
  | some r =>
    rw [hsp] at h
    rcases r with ⟨a', o'⟩ | _ | _ | _ <;> try exact h.elim
    obtain ⟨_, rfl, _⟩ := h
    have upd : ∀ (k : Nat) (x : String) (v : Option Obj) (q : SGroup), (abs s)[k]? = some q →
        ¬ (k = g ∧ x = n) → ∃ f', ((abs s).set k (q.update x v))[g]? = some f' ∧ f' n = f n := by
      intro k x v q hq hne
      rw [getElem?_set' _ _ _ _ _ hq]
      by_cases e : k = g
      · subst e
        rw [hf] at hq
        simp only [Option.some.injEq] at hq
        subst hq
        exact ⟨_, if_pos rfl, if_neg (fun hx => hne ⟨rfl, hx.symm⟩)⟩
      · exact ⟨f, by simp [e, hf], rfl⟩
    cases op with
    | assign d g => exact hop.elim
    | newGroup =>
      simp only [Spec.step, Option.some.injEq, Outcome.ok.injEq, Prod.mk.injEq] at hsp
      rw [← hsp.1]
      exact ⟨f, by rw [List.getElem?_append_left hg]; exact hf, rfl⟩
    | clone k =>
      simp only [Spec.step, Option.map_eq_some_iff, Outcome.ok.injEq, Prod.mk.injEq] at hsp
      obtain ⟨q, _, hq, _⟩ := hsp
      rw [← hq]
      exact ⟨f, by rw [List.getElem?_append_left hg]; exact hf, rfl⟩
    | get k x t =>
      simp only [Spec.step, Option.map_eq_some_iff] at hsp
      obtain ⟨q, _, hq⟩ := hsp
      split at hq
      · split at hq
        · simp only [Outcome.ok.injEq, Prod.mk.injEq] at hq
          rw [← hq.1]; exact ⟨f, hf, rfl⟩
        · simp at hq
      · simp at hq
    | has k x =>
      simp only [Spec.step, Option.map_eq_some_iff, Outcome.ok.injEq, Prod.mk.injEq] at hsp
      obtain ⟨q, _, hq, _⟩ := hsp
      rw [← hq]; exact ⟨f, hf, rfl⟩
    | add k x t =>
      simp only [Spec.step, Option.map_eq_some_iff] at hsp
      obtain ⟨q, hk, hq⟩ := hsp
      split at hq
      · simp at hq
      · simp only [Outcome.ok.injEq, Prod.mk.injEq] at hq
        rw [← hq.1]; exact upd k x _ q hk ht
    | set k x t v =>
      simp only [Spec.step, Option.map_eq_some_iff] at hsp
      obtain ⟨q, hk, hq⟩ := hsp
      split at hq
      · split at hq
        · simp only [Outcome.ok.injEq, Prod.mk.injEq] at hq
          rw [← hq.1]; exact upd k x _ q hk ht
        · simp at hq
      · simp at hq
    | remove k x =>
      simp only [Spec.step, Option.map_eq_some_iff] at hsp
      obtain ⟨q, hk, hq⟩ := hsp
      split at hq
      · simp only [Outcome.ok.injEq, Prod.mk.injEq] at hq
        rw [← hq.1]; exact upd k x _ q hk ht
      · simp at hq

example : ¬ (Op.set 1 "A" 7 (.matrix 1 1 [4])).touchesName 0 "A" := by
  simp [Op.touchesName]

/-- **C15, cloning.** Cloning group `g` creates a group with the same names, types and values. -/
theorem clone_equal {s : Store} (hi : Inv s) {g : Nat} {f : SGroup} (hf : (abs s)[g]? = some f) :
    ∃ s', step s (.clone g) = some (.ok (s', .group (abs s).length)) ∧
      abs s' = abs s ++ [f] ∧ Inv s' := by
  have h := step_refines hi (op := .clone g) trivial
  have hsp : (abs s).step (.clone g) = some (.ok (abs s ++ [f], .group (abs s).length)) := by
    simp [Spec.step, hf]
  rw [hsp] at h
  rcases hs : step s (.clone g) with _ | (⟨s', o⟩ | _ | _ | _) <;> rw [hs] at h <;>
    try exact h.elim
  exact ⟨s', by rw [h.1], h.2.1.symm, h.2.2⟩

example : step ⟨[⟨7, .matrix 1 1 [3]⟩], [], [[("A", 0)]]⟩ (.clone 0)
    = some (.ok (⟨[⟨7, .matrix 1 1 [3]⟩, ⟨7, .matrix 1 1 [3]⟩], [], [[("A", 0)], [("A", 1)]]⟩,
        .group 1)) := by rfl

/-- **C15 fails for the pixels of images.** A group with an image, its clone, and a write through the
clone: the original shows the changed pixels (`cv::Mat` copies are shallow). -/
theorem clone_shares_pixels_refuted :
    ∃ s s' s'' : Store, ∃ o, Inv s ∧ step s (.clone 0) = some (.ok (s', o)) ∧
      writePixels s' 1 "IMG" 9 [200] = some (.ok s'') ∧
      readPixels s 0 "IMG" = some [100] ∧ readPixels s'' 0 "IMG" = some [200] := by
  refine ⟨⟨[⟨9, .image 0⟩], [[100]], [[("IMG", 0)]]⟩, _, _, _, ?_, rfl, rfl, rfl, rfl⟩
  refine ⟨by simp, by simp, ?_⟩
  intro g h m m' hg hh n n' i h1 h2
  have key : ∀ {k : Nat} {q : Group}, [[("IMG", 0)]][k]? = some q → k = 0 ∧ q = [("IMG", 0)] := by
    intro k q hk
    rw [List.getElem?_singleton] at hk
    split at hk
    · next e => exact ⟨e, by simpa using hk.symm⟩
    · simp at hk
  obtain ⟨rfl, rfl⟩ := key hg
  obtain ⟨rfl, rfl⟩ := key hh
  rw [lookup_cons] at h1 h2
  refine ⟨rfl, ?_⟩
  split at h1
  · split at h2
    · next a b => rw [a, b]
    · simp at h2
  · simp at h1

/-- **C15 fails after the sharing copy.** `operator=` / the copy constructor of `ChannelGroup` share
the objects: a value stored through the copy appears in the original. -/
theorem assign_shares_refuted :
    ∃ s : Store, run Store.empty
      [.newGroup, .newGroup, .add 0 "A" 7, .assign 1 0, .set 1 "A" 7 (.matrix 1 1 [4]),
        .get 0 "A" 7]
      = some (.ok (s, [.group 0, .group 1, .val defaultVal, .unit, .unit,
          .val (.matrix 1 1 [4])])) := ⟨_, rfl⟩

/-! ### Comparing groups -/

theorem equalLoop_true {s : Store} {right left : Group} (h : equalLoop s right left = .ok true) :
    ∀ e ∈ left, ∃ oi oj, s.objs[e.2]? = some oi ∧ denote s.objs right e.1 = some oj ∧
      oi.ty = oj.ty ∧ valEq s.pixels oj.val oi.val = .ok true := by
  induction left with
  | nil => simp
  | cons e left ih =>
    obtain ⟨n, i⟩ := e
    simp only [equalLoop] at h
    cases hl : right.lookup n with
    | none => simp [hl] at h
    | some j =>
      simp only [hl] at h
      cases hj : s.objs[j]? with
      | none => simp [hj] at h
      | some oj =>
        cases hi : s.objs[i]? with
        | none => simp [hj, hi] at h
        | some oi =>
          simp only [hj, hi] at h
          obtain ⟨b, hc, h⟩ := Outcome.bind_eq_ok.mp h
          cases b with
          | false => simp at h
          | true =>
            simp only [if_true] at h
            unfold compare at hc
            split at hc
            · next ht =>
              intro e he
              rcases List.mem_cons.mp he with rfl | he
              · exact ⟨oi, oj, hi, by simp [denote, hl, hj], ht, hc⟩
              · exact ih h e he
            · simp at hc

/-- Two groups show the same channels: same names, types, and equal contents (matrices by dimensions
and entries, images by pixels). -/
def SameContents (pixels : List (List UInt8)) (f g : SGroup) : Prop :=
  ∀ n, match f n, g n with
    | none, none => True
    | some a, some b => a.ty = b.ty ∧
      match a.val, b.val with
      | .matrix r c d, .matrix r' c' d' => r = r' ∧ c = c' ∧ d = d'
      | .image x, .image y => ∃ p, pixels[x]? = some p ∧ pixels[y]? = some p
      | _, _ => False
    | _, _ => False

theorem nodup_subset_length {l r : List String} (hl : l.Nodup) (hs : ∀ x ∈ l, x ∈ r)
    (hlen : l.length = r.length) (hr : r.Nodup) : ∀ x ∈ r, x ∈ l := by
  induction l generalizing r with
  | nil =>
    have : r = [] := List.length_eq_zero_iff.mp hlen.symm
    simp [this]
  | cons a l ih =>
    rw [List.nodup_cons] at hl
    have ha : a ∈ r := hs a (by simp)
    have hlen' : l.length = (r.erase a).length := by
      rw [List.length_erase_of_mem ha, ← hlen]; rfl
    have := ih hl.2 (r := r.erase a) (fun x hx => by
      refine (List.mem_erase_of_ne ?_).mpr (hs x (by simp [hx]))
      intro e; subst e; exact hl.1 hx) hlen' (hr.erase a)
    intro x hx
    by_cases e : x = a
    · simp [e]
    · exact List.mem_cons_of_mem _ (this x ((List.mem_erase_of_ne e).mpr hx))

theorem lookup_of_mem {m : Group} (hk : (m.map (·.1)).Nodup) {n : String} {i : Nat}
    (h : (n, i) ∈ m) : m.lookup n = some i := by
  induction m with
  | nil => simp at h
  | cons e m ih =>
    obtain ⟨k, j⟩ := e
    rw [List.map_cons, List.nodup_cons] at hk
    rw [lookup_cons]
    rcases List.mem_cons.mp h with h | h'
    · simp only [Prod.mk.injEq] at h
      rw [if_pos h.1, h.2]
    · have : n ≠ k := by
        intro e; subst e
        exact hk.1 (List.mem_map.mpr ⟨(n, i), by assumption, rfl⟩)
      simp only [this, if_false]
      exact ih hk.2 h'

/-- **C15, comparison.** When `isChannelGroupEqual` on two different groups returns `true`, the groups
show the same channels. -/
theorem equal_groups_same_contents {s : Store} (hi : Inv s) {l r : Group} (hl : l ∈ s.groups)
    (hr : r ∈ s.groups) (h : isChannelGroupEqual s false l r = .ok true) :
    SameContents s.pixels (denote s.objs l) (denote s.objs r) := by
  unfold isChannelGroupEqual at h
  simp only [Bool.false_eq_true, if_false] at h
  split at h
  · simp at h
  · next hlen =>
    have hlen : l.length = r.length := by simpa using hlen
    have hall := equalLoop_true h
    have hsub : ∀ x ∈ l.map (·.1), x ∈ r.map (·.1) := by
      intro x hx
      obtain ⟨e, he, rfl⟩ := List.mem_map.mp hx
      obtain ⟨_, oj, _, hd, _⟩ := hall e he
      unfold denote at hd
      cases hrl : r.lookup e.1 with
      | none => simp [hrl] at hd
      | some j => exact List.mem_map.mpr ⟨_, lookup_mem hrl, rfl⟩
    have hsup := nodup_subset_length (hi.keys l hl) hsub (by simpa using hlen) (hi.keys r hr)
    intro n
    cases hln : l.lookup n with
    | none =>
      have : r.lookup n = none := by
        cases hrn : r.lookup n with
        | none => rfl
        | some j =>
          have := hsup n (List.mem_map.mpr ⟨_, lookup_mem hrn, rfl⟩)
          obtain ⟨⟨k, i⟩, he, hk⟩ := List.mem_map.mp this
          simp only at hk; subst hk
          rw [lookup_of_mem (hi.keys l hl) he] at hln
          simp at hln
      simp [denote, hln, this]
    | some i =>
      obtain ⟨oi, oj, h1, h2, h3, h4⟩ := hall _ (lookup_mem hln)
      have hdl : denote s.objs l n = some oi := by simp [denote, hln, h1]
      simp only at h2
      rw [hdl, h2]
      refine ⟨h3, ?_⟩
      revert h4
      cases oi.val <;> cases oj.val <;> simp only [valEq]
      · next a b c d e f =>
        split
        · next hh =>
          simp only [Outcome.ok.injEq, decide_eq_true_eq]
          intro hd; exact ⟨hh.1.symm, hh.2.symm, hd.symm⟩
        · simp
      · simp
      · simp
      · next x y =>
        cases hp : s.pixels[y]? with
        | none => simp
        | some p =>
          cases hq : s.pixels[x]? with
          | none => simp
          | some q =>
            simp only
            split
            · simp only [Outcome.ok.injEq, decide_eq_true_eq]
              intro e; subst e
              exact ⟨_, rfl, rfl⟩
            · simp

/-- **C15, comparison of a clone.** A group compares equal to its clone. -/
theorem equalLoop_complete {s : Store} {right left : Group}
    (h : ∀ e ∈ left, ∃ oi j oj, s.objs[e.2]? = some oi ∧ right.lookup e.1 = some j ∧
      s.objs[j]? = some oj ∧ oi.ty = oj.ty ∧ valEq s.pixels oj.val oi.val = .ok true) :
    equalLoop s right left = .ok true := by
  induction left with
  | nil => rfl
  | cons e left ih =>
    obtain ⟨n, i⟩ := e
    obtain ⟨oi, j, oj, h1, h2, h3, h4, h5⟩ := h (n, i) (by simp)
    simp only at h1 h2
    simp only [equalLoop, h2, h3, h1, compare, h4, if_true, h5, Outcome.bind_ok]
    exact ih fun e he => h e (by simp [he])

/-- **C15, comparison, converse.** Groups that show the same channels compare equal. -/
theorem same_contents_equal {s : Store} (hi : Inv s) {l r : Group} (hl : l ∈ s.groups)
    (hr : r ∈ s.groups) (h : SameContents s.pixels (denote s.objs l) (denote s.objs r)) :
    isChannelGroupEqual s false l r = .ok true := by
  have hkey : ∀ e ∈ l, ∃ oi j oj, s.objs[e.2]? = some oi ∧ r.lookup e.1 = some j ∧
      s.objs[j]? = some oj ∧ oi.ty = oj.ty ∧ valEq s.pixels oj.val oi.val = .ok true := by
    intro e he
    have hln := lookup_of_mem (hi.keys l hl) (n := e.1) (i := e.2) he
    have hv := hi.valid l hl e he
    have h1 : s.objs[e.2]? = some s.objs[e.2] := List.getElem?_eq_getElem hv
    have hn := h e.1
    have hdl : denote s.objs l e.1 = some s.objs[e.2] := by simp [denote, hln, h1]
    rw [hdl] at hn
    cases hrn : r.lookup e.1 with
    | none => simp [denote, hrn] at hn
    | some j =>
      have hvj := hi.valid r hr _ (lookup_mem hrn)
      have h3 : s.objs[j]? = some s.objs[j] := List.getElem?_eq_getElem hvj
      have hdr : denote s.objs r e.1 = some s.objs[j] := by simp [denote, hrn, h3]
      rw [hdr] at hn
      obtain ⟨ht, hv'⟩ := hn
      refine ⟨_, j, _, h1, rfl, h3, ht, ?_⟩
      revert hv'
      cases s.objs[e.2].val <;> cases s.objs[j].val <;> simp only [valEq]
      · rintro ⟨rfl, rfl, rfl⟩; simp
      · exact False.elim
      · exact False.elim
      · rintro ⟨p, hp, hq⟩; simp [hp, hq]
  have hsub : ∀ x ∈ r.map (·.1), x ∈ l.map (·.1) := by
    intro x hx
    obtain ⟨e, he, rfl⟩ := List.mem_map.mp hx
    have hrn := lookup_of_mem (hi.keys r hr) (n := e.1) (i := e.2) he
    have hv := hi.valid r hr e he
    have hn := h e.1
    have hdr : denote s.objs r e.1 = some s.objs[e.2] := by
      simp [denote, hrn, List.getElem?_eq_getElem hv]
    rw [hdr] at hn
    cases hln : l.lookup e.1 with
    | none => simp [denote, hln] at hn
    | some i => exact List.mem_map.mpr ⟨_, lookup_mem hln, rfl⟩
  have hsub' : ∀ x ∈ l.map (·.1), x ∈ r.map (·.1) := by
    intro x hx
    obtain ⟨e, he, rfl⟩ := List.mem_map.mp hx
    obtain ⟨_, j, _, _, hj, _⟩ := hkey e he
    exact List.mem_map.mpr ⟨_, lookup_mem hj, rfl⟩
  have hlen : l.length = r.length := by
    have a := List.Nodup.length_le_of_subset (hi.keys l hl) hsub'
    have b := List.Nodup.length_le_of_subset (hi.keys r hr) hsub
    simp only [List.length_map] at a b
    omega
  unfold isChannelGroupEqual
  simp only [Bool.false_eq_true, if_false, hlen, ne_eq, not_true]
  exact equalLoop_complete hkey

/-- Two distinct groups with the same channels, listed in different orders. -/
example : isChannelGroupEqual
    ⟨[⟨7, .matrix 1 1 [3]⟩, ⟨8, .matrix 0 0 []⟩, ⟨7, .matrix 1 1 [3]⟩, ⟨8, .matrix 0 0 []⟩], [],
      [[("A", 0), ("B", 1)], [("B", 3), ("A", 2)]]⟩ false [("A", 0), ("B", 1)] [("B", 3), ("A", 2)]
    = .ok true := by rfl

/-- Comparing groups whose matrices differ in size is not defined: the answer is not `false`. -/
theorem compare_sizes_refuted :
    ∃ s : Store, ∃ l r : Group, isChannelGroupEqual s false l r = .ub :=
  ⟨⟨[⟨7, .matrix 1 1 [3]⟩, ⟨7, .matrix 1 2 [3, 4]⟩], [], []⟩, [("A", 0)], [("A", 1)], rfl⟩

end Verif.Channels
