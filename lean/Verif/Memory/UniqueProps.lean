import Verif.Memory.Unique

/-!
# C125: aligned unique pointers

The specification: an object made by `aligned_unique` is destroyed once and its memory given back once, no later than
when the last variable has gone, and never while a variable holds it.
-/

namespace Verif.Memory

open Verif (Outcome)

/-- Calls of a program whose constructors do not throw and that converts only to base classes at the beginning of the
object that have a virtual destructor. -/
def Plain : Op → Prop
  | .make throws => throws = false
  | .toBase _ _ offset virt => offset = 0 ∧ virt = true
  | _ => True

/-- A block in use: constructed, neither destroyed nor given back. -/
def InUse (b : Block) : Prop := b = ⟨1, 0, 0⟩

/-- A block whose object was destroyed once and that was given back once. -/
def Done (b : Block) : Prop := b = ⟨1, 1, 1⟩

/-- The variables hold exactly the blocks in use, each is held once. -/
private structure Inv (heap : List Block) (vars : List (Option Ptr)) : Prop where
  holds : ∀ (v : Nat) (p : Ptr), vars[v]? = some (some p) → p.offset = 0 ∧ p.whole = true ∧
    ∃ b, heap[p.block]? = some b ∧ InUse b
  once : ∀ (v w : Nat) (p q : Ptr), vars[v]? = some (some p) → vars[w]? = some (some q) → p.block = q.block → v = w
  rest : ∀ (i : Nat) (b : Block), heap[i]? = some b → Done b ∨ (InUse b ∧ ∃ (v : Nat) (p : Ptr), vars[v]? = some (some p) ∧ p.block = i)

private theorem delete_held {heap : List Block} {p : Ptr} (h0 : p.offset = 0) (hw : p.whole = true) {b : Block}
    (hb : heap[p.block]? = some b) (hu : InUse b) : delete heap p = .ok (heap.set p.block ⟨1, 1, 1⟩) := by
  unfold InUse at hu
  subst hu
  simp [delete, hb, h0, hw]

/-- Taking the object out of a variable and deleting it. -/
private theorem inv_delete {heap : List Block} {vars : List (Option Ptr)} (h : Inv heap vars) {v : Nat} {o : Option Ptr}
    (hv : vars[v]? = some o) : ∃ heap', deleteOpt heap o = .ok heap' ∧ Inv heap' (vars.set v none) ∧
      heap'.length = heap.length := by
  have hvl : v < vars.length := by
    rcases Nat.lt_or_ge v vars.length with h' | h'
    · exact h'
    · rw [List.getElem?_eq_none h'] at hv; cases hv
  have hset : ∀ w, (vars.set v none)[w]? = if w = v then some none else vars[w]? := by
    intro w
    by_cases hw : w = v
    · subst hw; simp [hvl]
    · rw [if_neg hw, List.getElem?_set_ne (fun h => hw h.symm)]
  cases o with
  | none =>
    refine ⟨heap, rfl, ?_, rfl⟩
    have : vars.set v none = vars := by
      apply List.ext_getElem?
      intro w
      rw [hset]
      by_cases hw : w = v
      · subst hw; rw [if_pos rfl, hv]
      · rw [if_neg hw]
    rw [this]
    exact h
  | some p =>
    obtain ⟨h0, hwh, b, hb, hu⟩ := h.holds v p hv
    refine ⟨heap.set p.block ⟨1, 1, 1⟩, delete_held h0 hwh hb hu, ?_, by simp⟩
    have hbl : p.block < heap.length := by
      rcases Nat.lt_or_ge p.block heap.length with h' | h'
      · exact h'
      · rw [List.getElem?_eq_none h'] at hb; cases hb
    constructor
    · intro w q hq
      rw [hset] at hq
      by_cases hw : w = v
      · rw [if_pos hw] at hq; cases hq
      · rw [if_neg hw] at hq
        obtain ⟨k0, k1, c, hc, hcu⟩ := h.holds w q hq
        refine ⟨k0, k1, c, ?_, hcu⟩
        have : q.block ≠ p.block := fun e => hw (h.once w v q p hq hv e)
        rw [List.getElem?_set_ne (fun h => this h.symm)]
        exact hc
    · intro w w' q q' hq hq' e
      rw [hset] at hq hq'
      by_cases hw : w = v
      · rw [if_pos hw] at hq; cases hq
      · by_cases hw' : w' = v
        · rw [if_pos hw'] at hq'; cases hq'
        · rw [if_neg hw] at hq
          rw [if_neg hw'] at hq'
          exact h.once w w' q q' hq hq' e
    · intro i c hc
      by_cases hi : i = p.block
      · subst hi
        left
        simp [hbl] at hc
        exact hc.symm
      · rw [List.getElem?_set_ne (fun h => hi h.symm)] at hc
        rcases h.rest i c hc with hd | ⟨hcu, w, q, hq, hqb⟩
        · exact Or.inl hd
        · right
          refine ⟨hcu, w, q, ?_, hqb⟩
          have : w ≠ v := by
            intro e
            subst e
            rw [hv] at hq
            cases hq
            exact hi hqb.symm
          rw [hset, if_neg this]
          exact hq

/-- Putting a pointer to a variable that is null. -/
private theorem inv_put {heap : List Block} {vars : List (Option Ptr)} {src : Nat} {o : Option Ptr}
    (h : Inv heap (vars)) (hs : vars[src]? = some o) {dst : Nat}
    (hd : dst < vars.length) (hnull : ((vars.set src none)[dst]?) = some none) (conv : Ptr → Ptr)
    (hc : ∀ p, (conv p).block = p.block ∧ (p.offset = 0 → (conv p).offset = 0) ∧ (p.whole = true → (conv p).whole = true)) :
    Inv heap ((vars.set src none).set dst (o.map conv)) := by
  have hsl : src < vars.length := by
    rcases Nat.lt_or_ge src vars.length with h' | h'
    · exact h'
    · rw [List.getElem?_eq_none h'] at hs; cases hs
  have hset : ∀ w, ((vars.set src none).set dst (o.map conv))[w]? =
      if w = dst then some (o.map conv) else if w = src then some none else vars[w]? := by
    intro w
    by_cases hw : w = dst
    · subst hw; simp [hd]
    · rw [if_neg hw, List.getElem?_set_ne (fun h => hw h.symm)]
      by_cases hw' : w = src
      · subst hw'; simp [hsl]
      · rw [if_neg hw', List.getElem?_set_ne (fun h => hw' h.symm)]
  have hdst : dst = src ∨ vars[dst]? = some none := by
    by_cases e : dst = src
    · exact Or.inl e
    · right
      rw [List.getElem?_set_ne (fun h => e h.symm)] at hnull
      exact hnull
  -- every pointer afterwards comes from a pointer before
  have back : ∀ w q, ((vars.set src none).set dst (o.map conv))[w]? = some (some q) →
      (w = dst ∧ ∃ p, o = some p ∧ q = conv p) ∨ (w ≠ dst ∧ w ≠ src ∧ vars[w]? = some (some q)) := by
    intro w q hq
    rw [hset] at hq
    by_cases hw : w = dst
    · left
      rw [if_pos hw] at hq
      cases o with
      | none => cases hq
      | some p => exact ⟨hw, p, rfl, by simpa using hq.symm⟩
    · rw [if_neg hw] at hq
      by_cases hw' : w = src
      · rw [if_pos hw'] at hq; cases hq
      · rw [if_neg hw'] at hq
        exact Or.inr ⟨hw, hw', hq⟩
  constructor
  · intro w q hq
    rcases back w q hq with ⟨_, p, hp, rfl⟩ | ⟨_, _, hq⟩
    · subst hp
      obtain ⟨k0, k1, b, hb, hu⟩ := h.holds src p hs
      obtain ⟨c1, c2, c3⟩ := hc p
      exact ⟨c2 k0, c3 k1, b, by rw [c1]; exact hb, hu⟩
    · exact h.holds w q hq
  · intro w w' q q' hq hq' e
    rcases back w q hq with ⟨hw, p, hp, rfl⟩ | ⟨hw, hws, hq1⟩
    · rcases back w' q' hq' with ⟨hw', p', hp', rfl⟩ | ⟨hw', hws', hq1'⟩
      · rw [hw, hw']
      · subst hp
        rw [(hc p).1] at e
        exact absurd (h.once src w' p q' hs hq1' e) (fun h => hws' h.symm)
    · rcases back w' q' hq' with ⟨hw', p', hp', rfl⟩ | ⟨hw', hws', hq1'⟩
      · subst hp'
        rw [(hc p').1] at e
        exact absurd (h.once w src q p' hq1 hs e) hws
      · exact h.once w w' q q' hq1 hq1' e
  · intro i b hb
    rcases h.rest i b hb with hd' | ⟨hu, w, p, hp, hpb⟩
    · exact Or.inl hd'
    · right
      refine ⟨hu, ?_⟩
      by_cases hw : w = src
      · subst hw
        rw [hs] at hp
        cases hp
        exact ⟨dst, conv p, by rw [hset, if_pos rfl]; rfl, by rw [(hc p).1]; exact hpb⟩
      · refine ⟨w, p, ?_, hpb⟩
        have hwd : w ≠ dst := by
          intro e
          subst e
          rcases hdst with e | e
          · exact hw e
          · rw [e] at hp; cases hp
        rw [hset, if_neg hwd, if_neg hw]
        exact hp

private theorem inv_assign {s : State} (h : Inv s.heap s.vars) (dst src : Nat) (conv : Ptr → Ptr)
    (hc : ∀ p, (conv p).block = p.block ∧ (p.offset = 0 → (conv p).offset = 0) ∧ (p.whole = true → (conv p).whole = true)) :
    ∃ s', assign s dst src conv = .ok s' ∧ Inv s'.heap s'.vars := by
  unfold assign
  cases hs : s.vars[src]? with
  | none => exact ⟨s, rfl, h⟩
  | some o =>
    cases hd : s.vars[dst]? with
    | none => exact ⟨s, rfl, h⟩
    | some old =>
      simp only []
      have hdl : dst < s.vars.length := by
        rcases Nat.lt_or_ge dst s.vars.length with h' | h'
        · exact h'
        · rw [List.getElem?_eq_none h'] at hd; cases hd
      by_cases e : dst = src
      · subst e
        rw [hs] at hd
        have : (s.vars.set dst none)[dst]? = some none := by simp [hdl]
        rw [this]
        simp only [deleteOpt, Outcome.bind_ok]
        exact ⟨_, rfl, inv_put h hs hdl this conv hc⟩
      · have : (s.vars.set src none)[dst]? = some old := by
          rw [List.getElem?_set_ne (fun h => e h.symm)]; exact hd
        rw [this]
        simp only []
        obtain ⟨heap', h1, h2, _⟩ := inv_delete h hd
        rw [h1]
        simp only [Outcome.bind_ok]
        refine ⟨_, rfl, ?_⟩
        have hs' : (s.vars.set dst none)[src]? = some o := by
          rw [List.getElem?_set_ne e]; exact hs
        have hn : ((s.vars.set dst none).set src none)[dst]? = some none := by
          rw [List.getElem?_set_ne (fun h => e h.symm)]; simp [hdl]
        have := inv_put h2 hs' (dst := dst) (by simpa using hdl) hn conv hc
        have eq : ((s.vars.set dst none).set src none).set dst (o.map conv) =
            (s.vars.set src none).set dst (o.map conv) := by
          apply List.ext_getElem?
          intro w
          by_cases hw : w = dst
          · subst hw; simp [List.getElem?_set]
          · rw [List.getElem?_set_ne (fun h => hw h.symm), List.getElem?_set_ne (fun h => hw h.symm)]
            by_cases hw' : w = src
            · subst hw'; simp [List.getElem?_set]
            · rw [List.getElem?_set_ne (fun h => hw' h.symm), List.getElem?_set_ne (fun h => hw' h.symm),
                List.getElem?_set_ne (fun h => hw h.symm)]
        rw [eq] at this
        exact this

private theorem inv_deleteAll : ∀ (n : Nat) (heap : List Block) (vars : List (Option Ptr)),
    Inv heap vars → (∀ w, w < n → ∀ o, vars[w]? = some o → o = none) → n ≤ vars.length →
    ∃ heap', deleteAll heap (vars.drop n) = .ok heap' ∧ ∀ b ∈ heap', Done b := by
  intro n heap vars h hn hl
  induction hk : vars.length - n generalizing n heap vars with
  | zero =>
    have : vars.drop n = [] := List.drop_eq_nil_of_le (by omega)
    rw [this]
    refine ⟨heap, rfl, ?_⟩
    intro b hb
    obtain ⟨i, hi⟩ := List.mem_iff_getElem?.1 hb
    rcases h.rest i b hi with hd | ⟨_, w, p, hp, _⟩
    · exact hd
    · exfalso
      have hw : w < n := by
        rcases Nat.lt_or_ge w vars.length with h' | h'
        · omega
        · rw [List.getElem?_eq_none h'] at hp; cases hp
      cases hn w hw _ hp
  | succ k ih =>
    have hlt : n < vars.length := by omega
    rw [List.drop_eq_getElem_cons hlt]
    unfold deleteAll
    obtain ⟨heap', h1, h2, _⟩ := inv_delete h (List.getElem?_eq_getElem hlt)
    rw [h1]
    simp only [Outcome.bind_ok]
    have hdrop : vars.drop (n + 1) = (vars.set n none).drop (n + 1) := by
      rw [List.drop_set_of_lt (by omega)]
    rw [hdrop]
    apply ih (n + 1) heap' (vars.set n none) h2
    · intro w hw o ho
      by_cases e : w = n
      · subst e
        simp [hlt] at ho
        exact ho.symm
      · rw [List.getElem?_set_ne (fun h => e h.symm)] at ho
        exact hn w (by omega) o ho
    · simp; omega
    · simp; omega

private theorem step_inv {s : State} (h : Inv s.heap s.vars) {op : Op} (hp : Plain op) :
    ∃ s' b, step s op = .ok (s', b) ∧ Inv s'.heap s'.vars ∧ (op = .leave → s'.vars = [] ∧ ∀ b ∈ s'.heap, Done b) := by
  cases op with
  | make throws =>
    have : throws = false := hp
    subst this
    refine ⟨_, _, rfl, ?_, fun e => by cases e⟩
    have app : ∀ (w : Nat) (o : Option Ptr), (s.vars ++ [some ⟨s.heap.length, 0, true⟩])[w]? = some o →
        s.vars[w]? = some o ∨ (w = s.vars.length ∧ o = some ⟨s.heap.length, 0, true⟩) := by
      intro w o ho
      rcases Nat.lt_or_ge w s.vars.length with h' | h'
      · left; rw [List.getElem?_append_left h'] at ho; exact ho
      · right
        rw [List.getElem?_append_right h'] at ho
        have : w - s.vars.length = 0 := by
          by_cases e : w - s.vars.length = 0
          · exact e
          · rw [List.getElem?_eq_none (by simp; omega)] at ho; cases ho
        rw [this] at ho
        exact ⟨by omega, by simpa using ho.symm⟩
    have bound : ∀ (w : Nat) (p : Ptr), s.vars[w]? = some (some p) → p.block < s.heap.length := by
      intro w p hw
      obtain ⟨_, _, b, hb, _⟩ := h.holds w p hw
      rcases Nat.lt_or_ge p.block s.heap.length with h' | h'
      · exact h'
      · rw [List.getElem?_eq_none h'] at hb; cases hb
    constructor
    · intro w p hw
      rcases app w _ hw with hw | ⟨_, he⟩
      · obtain ⟨k0, k1, b, hb, hu⟩ := h.holds w p hw
        exact ⟨k0, k1, b, by rw [List.getElem?_append_left (bound w p hw)]; exact hb, hu⟩
      · cases he
        exact ⟨rfl, rfl, ⟨1, 0, 0⟩, by simp, rfl⟩
    · intro v w p q hv hw e
      rcases app v _ hv with hv | ⟨hv, he⟩ <;> rcases app w _ hw with hw | ⟨hw, he'⟩
      · exact h.once v w p q hv hw e
      · cases he'
        have := bound v p hv
        simp only [] at e
        omega
      · cases he
        have := bound w q hw
        simp only [] at e
        omega
      · omega
    · intro i b hb
      rcases Nat.lt_or_ge i s.heap.length with h' | h'
      · rw [List.getElem?_append_left h'] at hb
        rcases h.rest i b hb with hd | ⟨hu, v, p, hv, hpb⟩
        · exact Or.inl hd
        · right
          refine ⟨hu, v, p, ?_, hpb⟩
          have : v < s.vars.length := by
            rcases Nat.lt_or_ge v s.vars.length with h' | h'
            · exact h'
            · rw [List.getElem?_eq_none h'] at hv; cases hv
          rw [List.getElem?_append_left this]
          exact hv
      · rw [List.getElem?_append_right h'] at hb
        have hi : i - s.heap.length = 0 := by
          by_cases e : i - s.heap.length = 0
          · exact e
          · rw [List.getElem?_eq_none (by simp; omega)] at hb; cases hb
        rw [hi] at hb
        right
        refine ⟨by simpa [InUse] using hb.symm, s.vars.length, ⟨s.heap.length, 0, true⟩, by simp, by simp; omega⟩
  | null =>
    refine ⟨_, _, rfl, ?_, fun e => by cases e⟩
    have app : ∀ (w : Nat) (p : Ptr), (s.vars ++ [none])[w]? = some (some p) ↔ s.vars[w]? = some (some p) := by
      intro w p
      rcases Nat.lt_or_ge w s.vars.length with h' | h'
      · rw [List.getElem?_append_left h']
      · rw [List.getElem?_append_right h', List.getElem?_eq_none h']
        rcases Nat.eq_zero_or_pos (w - s.vars.length) with e | e
        · rw [e]; simp
        · rw [List.getElem?_eq_none (by simp; omega)]
    constructor
    · intro w p hw
      exact h.holds w p ((app w p).1 hw)
    · intro v w p q hv hw e
      exact h.once v w p q ((app v p).1 hv) ((app w q).1 hw) e
    · intro i b hb
      rcases h.rest i b hb with hd | ⟨hu, v, p, hv, hpb⟩
      · exact Or.inl hd
      · exact Or.inr ⟨hu, v, p, (app v p).2 hv, hpb⟩
  | move dst src =>
    obtain ⟨s', h1, h2⟩ := inv_assign h dst src id (fun p => ⟨rfl, id, id⟩)
    exact ⟨s', false, by simp [step, h1], h2, fun e => by cases e⟩
  | toBase dst src off virt =>
    obtain ⟨h0, hv⟩ := hp
    subst h0
    subst hv
    obtain ⟨s', h1, h2⟩ := inv_assign h dst src (fun p => ⟨p.block, p.offset + 0, p.whole && true⟩)
      (fun p => ⟨rfl, fun e => e, fun e => by simp [e]⟩)
    exact ⟨s', false, by simp only [step]; rw [h1]; rfl, h2, fun e => by cases e⟩
  | reset v =>
    cases hv : s.vars[v]? with
    | none => exact ⟨s, false, by simp [step, hv], h, fun e => by cases e⟩
    | some o =>
      obtain ⟨heap', h1, h2, _⟩ := inv_delete h hv
      exact ⟨⟨heap', s.vars.set v none⟩, false, by simp [step, hv, h1], h2, fun e => by cases e⟩
  | leave =>
    obtain ⟨heap', h1, h2⟩ := inv_deleteAll 0 s.heap s.vars h (fun w hw => by omega) (by omega)
    refine ⟨⟨heap', []⟩, false, by simp only [step]; rw [List.drop_zero] at h1; rw [h1]; rfl, ?_, fun _ => ⟨rfl, h2⟩⟩
    constructor
    · intro w p hw; simp at hw
    · intro v w p q hv; simp at hv
    · intro i b hb
      exact Or.inl (h2 b (List.mem_of_getElem? hb))

private theorem run_inv {s : State} (h : Inv s.heap s.vars) {ops : List Op} (hp : ∀ op ∈ ops, Plain op) :
    ∃ s', run s ops = .ok s' ∧ Inv s'.heap s'.vars := by
  induction ops generalizing s with
  | nil => exact ⟨s, rfl, h⟩
  | cons op ops ih =>
    obtain ⟨s1, b, h1, h2, _⟩ := step_inv h (hp op (by simp))
    obtain ⟨s2, h3, h4⟩ := ih h2 (fun o ho => hp o (by simp [ho]))
    exact ⟨s2, by simp [run, h1, h3], h4⟩

private theorem start_inv : Inv State.start.heap State.start.vars := by
  constructor
  · intro v p h; simp [State.start] at h
  · intro v w p q h; simp [State.start] at h
  · intro i b h; simp [State.start] at h

/-! ## Theorems -/

/-- No program of plain calls runs into undefined behaviour: nothing is destroyed or given back twice.  At every moment
each variable that is not null holds an object that lives, no two variables hold the same object, and every object
that no variable holds has been destroyed once and given back once. -/
theorem owned_once (ops : List Op) (hp : ∀ op ∈ ops, Plain op) :
    ∃ s, run State.start ops = .ok s ∧
      (∀ (v : Nat) (p : Ptr), s.vars[v]? = some (some p) → s.heap[p.block]? = some ⟨1, 0, 0⟩) ∧
      (∀ (v w : Nat) (p q : Ptr), s.vars[v]? = some (some p) → s.vars[w]? = some (some q) → v ≠ w → p.block ≠ q.block) ∧
      (∀ (i : Nat) (b : Block), s.heap[i]? = some b → (∀ (v : Nat) (p : Ptr), s.vars[v]? = some (some p) → p.block ≠ i) →
        b = ⟨1, 1, 1⟩) := by
  obtain ⟨s, h1, h2⟩ := run_inv start_inv hp
  refine ⟨s, h1, ?_, ?_, ?_⟩
  · intro v p hv
    obtain ⟨_, _, b, hb, hu⟩ := h2.holds v p hv
    rw [hb, hu]
  · intro v w p q hv hw hne e
    exact hne (h2.once v w p q hv hw e)
  · intro i b hb hno
    rcases h2.rest i b hb with hd | ⟨_, v, p, hv, hpb⟩
    · exact hd
    · exact absurd hpb (hno v p hv)

example : ∀ op ∈ [Op.make false, .make false, .null, .move 2 0, .toBase 1 2 0 true, .reset 1, .leave], Plain op := by
  simp [Plain]

example : run State.start [.make false, .make false, .null, .move 2 0, .toBase 1 2 0 true] =
    .ok ⟨[⟨1, 0, 0⟩, ⟨1, 1, 1⟩], [none, some ⟨0, 0, true⟩, none]⟩ := rfl

/-- When the scope is left every object that was ever made has been destroyed exactly once and its memory given back
exactly once. -/
theorem nothing_leaks (ops : List Op) (hp : ∀ op ∈ ops, Plain op) :
    ∃ s, run State.start (ops ++ [.leave]) = .ok s ∧ s.vars = [] ∧ ∀ b ∈ s.heap, b = ⟨1, 1, 1⟩ := by
  obtain ⟨s, h1, h2⟩ := run_inv start_inv hp
  obtain ⟨s', b, k1, _, k3⟩ := step_inv h2 (op := .leave) trivial
  obtain ⟨k4, k5⟩ := k3 rfl
  refine ⟨s', ?_, k4, k5⟩
  have : ∀ (ops : List Op) (t t' : State), run t ops = .ok t' → run t (ops ++ [.leave]) = run t' [.leave] := by
    intro ops
    induction ops with
    | nil => intro t t' h; cases h; rfl
    | cons op ops ih =>
      intro t t' h
      obtain ⟨r, hr1, hr2⟩ := Outcome.bind_eq_ok.1 h
      simp only [List.cons_append, run, hr1, Outcome.bind_ok]
      exact ih r.1 t' hr2
  rw [this ops State.start s h1]
  simp [run, k1]

/-- Each call of `aligned_unique` makes one object: the heap grows by one block with a constructed object, and the
variable holds it. -/
theorem make_spec (s : State) : ∃ s', step s (.make false) = .ok (s', false) ∧
    s'.heap = s.heap ++ [⟨1, 0, 0⟩] ∧ s'.vars = s.vars ++ [some ⟨s.heap.length, 0, true⟩] := ⟨_, rfl, rfl, rfl⟩

/-- Moving hands the object over: the destination holds it, the source is null, and no object is made or lost. -/
theorem move_spec {s s' : State} {b : Bool} {dst src : Nat} {p : Ptr} (hne : dst ≠ src)
    (hs : s.vars[src]? = some (some p)) (hd : s.vars[dst]? = some none)
    (h : step s (.move dst src) = .ok (s', b)) :
    s'.vars[dst]? = some (some p) ∧ s'.vars[src]? = some none ∧ s'.heap = s.heap := by
  have h1 : (s.vars.set src none)[dst]? = some none := by
    rw [List.getElem?_set_ne (fun h => hne h.symm)]; exact hd
  have hsl : src < s.vars.length := by
    rcases Nat.lt_or_ge src s.vars.length with h' | h'
    · exact h'
    · rw [List.getElem?_eq_none h'] at hs; cases hs
  have hdl : dst < s.vars.length := by
    rcases Nat.lt_or_ge dst s.vars.length with h' | h'
    · exact h'
    · rw [List.getElem?_eq_none h'] at hd; cases hd
  simp only [step, assign, hs, hd, h1, deleteOpt, Outcome.bind_ok, Outcome.ok.injEq, Prod.mk.injEq] at h
  obtain ⟨h, _⟩ := h
  subst h
  refine ⟨by simp [hdl], ?_, rfl⟩
  simp only []
  rw [List.getElem?_set_ne hne]
  simp [hsl]

example : step ⟨[⟨1, 0, 0⟩], [some ⟨0, 0, true⟩, none]⟩ (.move 1 0) =
    .ok (⟨[⟨1, 0, 0⟩], [none, some ⟨0, 0, true⟩]⟩, false) := rfl

/-- A constructor that throws leaks: `aligned_unique` does not give the memory back, and no variable holds it. -/
theorem throwing_constructor_refuted : ∃ s, run State.start [.make true, .leave] = .ok s ∧
    s.heap = [⟨0, 0, 0⟩] ∧ s.vars = [] := ⟨_, rfl, rfl, rfl⟩

/-- The conversion to a pointer to a second base class, which `aligned_delete` allows, ends in undefined behaviour: an
address is given back that was not handed out. -/
theorem second_base_refuted (offset : Nat) (h : 0 < offset) :
    run State.start [.make false, .null, .toBase 1 0 offset true, .leave] = .ub := by
  have : offset ≠ 0 := by omega
  simp [run, step, State.start, assign, deleteOpt, deleteAll, delete, this]

example : 0 < 8 := by decide

/-- After a conversion to a base class without virtual destructor the object is never destroyed as a whole, though its
memory is given back. -/
theorem nonvirtual_refuted : ∃ s, run State.start [.make false, .null, .toBase 1 0 0 false, .leave] = .ok s ∧
    s.heap = [⟨1, 0, 1⟩] := ⟨_, rfl, rfl⟩

end Verif.Memory
