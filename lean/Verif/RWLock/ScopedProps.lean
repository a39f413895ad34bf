import Verif.RWLock.Scoped
import Verif.RWLock.Props

/-!
# Properties of scoped locks (C134)
-/

namespace Verif.RWLock.Scoped

open Verif.RWLock (Variant Pc)

/-! ## Specification -/

/-- The states that programs with scoped locks can reach. -/
def Reachable (v : Variant) (n : Nat) (s : State) : Prop := Leads v (init n) s

/-- Lock `k` exists and its constructor has returned; it was not moved from and its destructor has not begun. -/
def Holds (s : State) (k : Nat) (o : Obj) : Prop :=
  s.objs[k]? = some (some o) ∧
    ∃ i, o.place = some i ∧ (s.mutex.threads[i]? = some .reading ∨ s.mutex.threads[i]? = some .writing)

/-- Lock `k` is in its constructor, waiting for the mutex. -/
def Waits (s : State) (k : Nat) (o : Obj) : Prop :=
  s.objs[k]? = some (some o) ∧
    ∃ i, o.place = some i ∧ (RWLock.WaitsRead s.mutex i ∨ RWLock.WaitsWrite s.mutex i)

/-- Runs a list of actions. -/
def run (v : Variant) : State → List Action → Option State
  | s, [] => some s
  | s, a :: as =>
    match step v s a with
    | some s' => run v s' as
    | none => none

theorem leads_run {v : Variant} {s0 : State} : ∀ {as : List Action} {s s' : State}, Leads v s0 s → run v s as = some s' →
    Leads v s0 s'
  | [], s, s', h, hr => by
    cases hr
    exact h
  | a :: as, s, s', h, hr => by
    simp only [run] at hr
    split at hr
    · rename_i s1 hs
      exact leads_run (.step h hs) hr
    · cases hr

/-! ## What steps of the mutex do to places -/

/-- Kinds of program counters. -/
inductive Cls where
  | idle | waitR | reading | waitW | writing | rel | upg
  deriving DecidableEq, Repr

/-- The kind of a program counter. -/
def cls : Pc → Cls
  | .idle => .idle
  | .rdAsleep => .waitR
  | .rdWoken => .waitR
  | .reading => .reading
  | .wr1Asleep => .waitW
  | .wr1Woken => .waitW
  | .wr2Asleep => .waitW
  | .wr2Woken => .waitW
  | .writing => .writing
  | .relNotify => .rel
  | .upAsleep => .upg
  | .upWoken => .upg

/-- The kind at a place of the mutex. -/
def kind (m : RWLock.State) (i : Nat) : Option Cls := (m.threads[i]?).map cls

theorem kind_goto (m : RWLock.State) (i j : Nat) (p : Pc) :
    kind (m.goto i p) j = if i = j ∧ j < m.threads.length then some (cls p) else kind m j := by
  unfold kind RWLock.State.goto
  simp only [List.getElem?_set]
  by_cases h : i = j
  · subst h
    by_cases hl : i < m.threads.length
    · simp [hl]
    · simp [hl]
  · simp [h]

theorem cls_wakeR (p : Pc) : cls (wakeR p) = cls p := by cases p <;> rfl

theorem cls_wakeW (p : Pc) : cls (wakeW p) = cls p := by cases p <;> rfl

theorem kind_notifyReaders (m : RWLock.State) (j : Nat) : kind m.notifyReaders j = kind m j := by
  unfold kind RWLock.State.notifyReaders
  cases h : m.threads[j]? <;> simp [h, cls_wakeR]

theorem kind_notifyWriterFinished (m : RWLock.State) (j : Nat) : kind m.notifyWriterFinished j = kind m j := by
  unfold kind RWLock.State.notifyWriterFinished
  cases h : m.threads[j]? <;> simp [h, cls_wakeW]

/-- Only the place `i` changes, from kind `a` to one of the kinds `bs`. -/
def Moves (m m' : RWLock.State) (i : Nat) (a : Cls) (bs : List Cls) : Prop :=
  kind m i = some a ∧ (∃ b ∈ bs, kind m' i = some b) ∧ ∀ j, j ≠ i → kind m' j = kind m j

theorem moves_of_goto {m m' : RWLock.State} {i : Nat} {p q : Pc} {bs : List Cls} (h : m.threads[i]? = some p)
    (hm : ∀ j, kind m' j = if i = j ∧ j < m.threads.length then some (cls q) else kind m j) (hq : cls q ∈ bs) :
    Moves m m' i (cls p) bs := by
  have hl : i < m.threads.length := RWLock.lt_of_some h
  refine ⟨by simp [kind, h], ⟨cls q, hq, by rw [hm, if_pos ⟨rfl, hl⟩]⟩, fun j hj => ?_⟩
  rw [hm, if_neg fun hh => hj hh.1.symm]

theorem moves_read (v : Variant) {m : RWLock.State} {i : Nat} {p : Pc} (h : m.threads[i]? = some p) (k : Nat) :
    Moves m (RWLock.tryRead v { m with pendingReaders := k } i) i (cls p) [.waitR, .reading] := by
  unfold RWLock.tryRead
  cases v
  · simp only
    split
    · exact moves_of_goto h (fun j => kind_goto { m with pendingReaders := k } i j .rdAsleep) (by decide)
    · exact moves_of_goto h (fun j => kind_goto { m with pendingReaders := dec k, numReaders := m.numReaders + 1 } i j .reading)
        (by decide)
  · simp only
    split
    · exact moves_of_goto h (fun j => kind_goto { m with pendingReaders := k } i j .rdAsleep) (by decide)
    · exact moves_of_goto h (fun j => kind_goto { m with pendingReaders := k, numReaders := m.numReaders + 1 } i j .reading)
        (by decide)

theorem moves_write2 {m : RWLock.State} {i : Nat} {p : Pc} (h : m.threads[i]? = some p) (k : Nat) :
    Moves m (RWLock.tryWrite2 { m with numPendingWriters := k } i) i (cls p) [.waitW, .writing] := by
  unfold RWLock.tryWrite2
  simp only
  split
  · exact moves_of_goto h (fun j => kind_goto { m with numPendingWriters := k } i j .wr2Asleep) (by decide)
  · exact moves_of_goto h (fun j => kind_goto { m with numPendingWriters := dec k, currentWriter := true } i j .writing)
      (by decide)

theorem moves_write1 (v : Variant) {m : RWLock.State} {i : Nat} {p : Pc} (h : m.threads[i]? = some p) (k : Nat) :
    Moves m (RWLock.tryWrite1 v { m with numPendingWriters := k } i) i (cls p) [.waitW, .writing] := by
  unfold RWLock.tryWrite1
  split
  · exact moves_of_goto h (fun j => kind_goto { m with numPendingWriters := k } i j .wr1Asleep) (by decide)
  · cases v
    · exact moves_write2 h k
    · simp only
      split
      · exact moves_of_goto h (fun j => kind_goto { m with numPendingWriters := k, currentWriter := true } i j .writing)
          (by decide)
      · exact moves_of_goto h (fun j => kind_goto { m with numPendingWriters := k } i j .wr2Asleep) (by decide)

theorem moves_acquireRead {v : Variant} {m m' : RWLock.State} {i : Nat}
    (h : RWLock.step v m (.acquireRead i) = some m') : Moves m m' i .idle [.waitR, .reading] := by
  simp only [RWLock.step] at h
  split at h
  · rename_i hp
    cases h
    unfold RWLock.acquireRead
    cases v
    · exact moves_read .base hp _
    · exact moves_read .readerFirst hp m.pendingReaders
  · cases h

theorem moves_acquireWrite {v : Variant} {m m' : RWLock.State} {i : Nat}
    (h : RWLock.step v m (.acquireWrite i) = some m') : Moves m m' i .idle [.waitW, .writing] := by
  simp only [RWLock.step] at h
  split at h
  · rename_i hp
    cases h
    unfold RWLock.acquireWrite
    cases v
    · exact moves_write1 .base hp _
    · exact moves_write1 .readerFirst hp m.numPendingWriters
  · cases h

theorem moves_releaseRead {v : Variant} {m m' : RWLock.State} {i : Nat}
    (h : RWLock.step v m (.releaseRead i) = some m') : Moves m m' i .reading [.idle] := by
  simp only [RWLock.step] at h
  split at h
  · rename_i hp
    cases h
    refine moves_of_goto hp (q := .idle) (fun j => ?_) (by decide)
    unfold RWLock.releaseRead
    simp only
    split
    · rw [kind_notifyReaders, kind_goto]
      rfl
    · rw [kind_goto]
      rfl
  · cases h

theorem moves_releaseWrite {v : Variant} {m m' : RWLock.State} {i : Nat}
    (h : RWLock.step v m (.releaseWrite i) = some m') : Moves m m' i .writing [.rel] := by
  simp only [RWLock.step] at h
  split at h
  · rename_i hp
    cases h
    exact moves_of_goto hp (fun j => kind_goto { m with currentWriter := false } i j .relNotify) (by decide)
  · cases h

theorem moves_notify {v : Variant} {m m' : RWLock.State} {i : Nat}
    (h : RWLock.step v m (.notify i) = some m') : Moves m m' i .rel [.idle] := by
  simp only [RWLock.step] at h
  split at h
  · rename_i hp
    cases h
    refine moves_of_goto hp (q := .idle) (fun j => ?_) (by decide)
    rw [kind_notifyWriterFinished, kind_goto]
  · cases h

theorem moves_tryUpgrade {m : RWLock.State} {i : Nat} {p : Pc} (h : m.threads[i]? = some p) :
    Moves m (RWLock.tryUpgrade m i) i (cls p) [.upg, .writing] := by
  unfold RWLock.tryUpgrade
  split
  · exact moves_of_goto h (fun j => kind_goto m i j .upAsleep) (by decide)
  · refine moves_of_goto h (q := .writing) (fun j => ?_) (by decide)
    simp only
    split
    · rw [kind_notifyReaders, kind_goto]
      rfl
    · rw [kind_goto]
      rfl

/-- What a resumed call can come to. -/
def after : Cls → List Cls
  | .waitR => [.waitR, .reading]
  | .waitW => [.waitW, .writing]
  | .upg => [.upg, .writing]
  | c => [c]

theorem moves_resume {v : Variant} {m m' : RWLock.State} {i : Nat}
    (h : RWLock.step v m (.resume i) = some m') : ∃ c, Moves m m' i c (after c) := by
  simp only [RWLock.step] at h
  split at h
  · rename_i hp
    cases h
    exact ⟨_, moves_read v hp m.pendingReaders⟩
  · rename_i hp
    cases h
    exact ⟨_, moves_write1 v hp m.numPendingWriters⟩
  · rename_i hp
    cases h
    refine ⟨.waitW, ?_⟩
    unfold RWLock.resumeWrite2
    cases v
    · exact moves_write2 hp m.numPendingWriters
    · simp only
      split
      · exact moves_of_goto hp (fun j => kind_goto m i j .wr2Asleep) (by decide)
      · exact moves_write1 .readerFirst hp m.numPendingWriters
  · rename_i hp
    cases h
    exact ⟨_, moves_tryUpgrade hp⟩
  · cases h

theorem moves_spurious {v : Variant} {m m' : RWLock.State} {i : Nat}
    (h : RWLock.step v m (.spurious i) = some m') : ∃ c, Moves m m' i c [c] := by
  simp only [RWLock.step] at h
  split at h
  · rename_i hp
    cases h
    exact ⟨_, moves_of_goto hp (fun j => kind_goto m i j .rdWoken) (by decide)⟩
  · rename_i hp
    cases h
    exact ⟨_, moves_of_goto hp (fun j => kind_goto m i j .wr1Woken) (by decide)⟩
  · rename_i hp
    cases h
    exact ⟨_, moves_of_goto hp (fun j => kind_goto m i j .wr2Woken) (by decide)⟩
  · rename_i hp
    cases h
    exact ⟨_, moves_of_goto hp (fun j => kind_goto m i j .upWoken) (by decide)⟩
  · cases h

/-! ## The invariant -/

/-- What the place of a lock may be at. -/
def Fits (write : Bool) (c : Cls) : Prop :=
  if write then c = .waitW ∨ c = .writing ∨ c = .rel else c = .waitR ∨ c = .reading

/-- Locks and places belong to each other one to one. -/
structure Link (s : State) : Prop where
  fits : ∀ (k : Nat) (o : Obj) (i : Nat), s.objs[k]? = some (some o) → o.place = some i →
    ∃ c, kind s.mutex i = some c ∧ Fits o.write c
  one : ∀ (k k' : Nat) (o o' : Obj) (i : Nat), s.objs[k]? = some (some o) → s.objs[k']? = some (some o') →
    o.place = some i → o'.place = some i → k = k'
  used : ∀ (i : Nat) (c : Cls), kind s.mutex i = some c → c ≠ .idle →
    ∃ (k : Nat) (o : Obj), s.objs[k]? = some (some o) ∧ o.place = some i

theorem link_init (n : Nat) : Link (init n) := by
  refine ⟨fun k o i h => by simp [init] at h, fun k k' o o' i h => by simp [init] at h, fun i c h hc => ?_⟩
  exfalso
  unfold kind init RWLock.init at h
  simp only [List.getElem?_replicate] at h
  split at h
  · simp [cls] at h
    exact hc h.symm
  · simp at h

theorem get_append {l : List (Option Obj)} {x : Option Obj} {k : Nat} {y : Option Obj} (h : (l ++ [x])[k]? = some y) :
    l[k]? = some y ∨ (k = l.length ∧ y = x) := by
  by_cases hk : k < l.length
  · rw [List.getElem?_append_left hk] at h
    exact Or.inl h
  · rw [List.getElem?_append_right (by omega)] at h
    by_cases h0 : k = l.length
    · subst h0
      simp at h
      exact Or.inr ⟨rfl, h.symm⟩
    · have : k - l.length ≠ 0 := by omega
      obtain ⟨d, hd⟩ := Nat.exists_eq_succ_of_ne_zero this
      rw [hd] at h
      simp at h

theorem get_set {l : List (Option Obj)} {x y : Option Obj} {k k' : Nat} (h : (l.set k x)[k']? = some y) :
    (k' ≠ k ∧ l[k']? = some y) ∨ (k' = k ∧ y = x) := by
  rw [List.getElem?_set] at h
  split at h
  · rename_i e
    split at h
    · exact Or.inr ⟨e.symm, by simpa using h.symm⟩
    · cases h
  · rename_i e
    exact Or.inl ⟨fun e' => e e'.symm, h⟩

/-- A lock that goes on with its call. -/
theorem Link.stay {s : State} (L : Link s) {m' : RWLock.State} {i : Nat} {a : Cls} {bs : List Cls}
    (hm : Moves s.mutex m' i a bs) (ha : a ≠ .idle) (hf : ∀ w, Fits w a → ∀ b ∈ bs, Fits w b) :
    Link ⟨m', s.objs⟩ := by
  obtain ⟨h1, ⟨b, hb, h2⟩, h3⟩ := hm
  refine ⟨fun k o j hk hp => ?_, fun k k' o o' j => L.one k k' o o' j, fun j c hc hne => ?_⟩
  · obtain ⟨c, hc, hfc⟩ := L.fits k o j hk hp
    by_cases e : j = i
    · subst e
      rw [h1] at hc
      cases hc
      exact ⟨b, h2, hf _ hfc b hb⟩
    · exact ⟨c, by rw [h3 j e]; exact hc, hfc⟩
  · by_cases e : j = i
    · subst e
      exact L.used j a h1 ha
    · rw [h3 j e] at hc
      exact L.used j c hc hne

/-- A lock that gives its place back. -/
theorem Link.leave {s : State} (L : Link s) {m' : RWLock.State} {k i : Nat} {o : Obj} {a : Cls}
    (hk : s.objs[k]? = some (some o)) (hp : o.place = some i) (hm : Moves s.mutex m' i a [.idle]) :
    Link ⟨m', s.objs.set k none⟩ := by
  obtain ⟨h1, ⟨b, hb, h2⟩, h3⟩ := hm
  simp only [List.mem_singleton] at hb
  subst hb
  refine ⟨fun k' o' j hk' hp' => ?_, fun k1 k2 o1 o2 j g1 g2 p1 p2 => ?_, fun j c hc hne => ?_⟩
  · rcases get_set hk' with ⟨hne, hk'⟩ | ⟨_, h⟩
    · have e : j ≠ i := by
        intro e
        subst e
        exact hne (L.one k' k o' o j hk' hk hp' hp)
      obtain ⟨c, hc, hfc⟩ := L.fits k' o' j hk' hp'
      exact ⟨c, by rw [h3 j e]; exact hc, hfc⟩
    · cases h
  · rcases get_set g1 with ⟨_, g1⟩ | ⟨_, h⟩
    · rcases get_set g2 with ⟨_, g2⟩ | ⟨_, h⟩
      · exact L.one k1 k2 o1 o2 j g1 g2 p1 p2
      · cases h
    · cases h
  · by_cases e : j = i
    · subst e
      rw [h2] at hc
      cases hc
      exact absurd rfl hne
    · rw [h3 j e] at hc
      obtain ⟨k', o', hk', hp'⟩ := L.used j c hc hne
      refine ⟨k', o', ?_, hp'⟩
      rw [List.getElem?_set]
      rw [if_neg]
      · exact hk'
      · intro ek
        subst ek
        rw [hk] at hk'
        cases hk'
        rw [hp] at hp'
        cases hp'
        exact e rfl

/-- A new lock. -/
theorem Link.make {s : State} (L : Link s) {m' : RWLock.State} {t i : Nat} {w : Bool} {bs : List Cls}
    (hm : Moves s.mutex m' i .idle bs) (hf : ∀ b ∈ bs, Fits w b) :
    Link ⟨m', s.objs ++ [some ⟨t, w, some i⟩]⟩ := by
  obtain ⟨h1, ⟨b, hb, h2⟩, h3⟩ := hm
  have hold : ∀ (k : Nat) (o : Obj) (j : Nat), s.objs[k]? = some (some o) → o.place = some j → j ≠ i := by
    intro k o j hk hp e
    subst e
    obtain ⟨c, hc, hfc⟩ := L.fits k o j hk hp
    rw [h1] at hc
    cases hc
    unfold Fits at hfc
    split at hfc <;> simp at hfc
  refine ⟨fun k o j hk hp => ?_, fun k1 k2 o1 o2 j g1 g2 p1 p2 => ?_, fun j c hc hne => ?_⟩
  · rcases get_append hk with hk | ⟨_, h⟩
    · obtain ⟨c, hc, hfc⟩ := L.fits k o j hk hp
      exact ⟨c, by rw [h3 j (hold k o j hk hp)]; exact hc, hfc⟩
    · cases h
      cases hp
      exact ⟨b, h2, hf b hb⟩
  · rcases get_append g1 with g1 | ⟨e1, h1'⟩
    · rcases get_append g2 with g2 | ⟨e2, h2'⟩
      · exact L.one k1 k2 o1 o2 j g1 g2 p1 p2
      · cases h2'
        cases p2
        exact absurd rfl (hold k1 o1 i g1 p1)
    · rcases get_append g2 with g2 | ⟨e2, h2'⟩
      · cases h1'
        cases p1
        exact absurd rfl (hold k2 o2 i g2 p2)
      · rw [e1, e2]
  · by_cases e : j = i
    · subst e
      exact ⟨s.objs.length, ⟨t, w, some j⟩, by simp, rfl⟩
    · rw [h3 j e] at hc
      obtain ⟨k', o', hk', hp'⟩ := L.used j c hc hne
      refine ⟨k', o', ?_, hp'⟩
      rw [List.getElem?_append_left (by
        have := List.getElem?_eq_some_iff.1 hk'
        exact this.1)]
      exact hk'

/-- Moving a lock. -/
theorem Link.move {s : State} (L : Link s) {k t : Nat} {o : Obj} (hk : s.objs[k]? = some (some o)) :
    Link { s with objs := s.objs.set k (some { o with place := none }) ++ [some { o with owner := t }] } := by
  have hlen : k < s.objs.length := (List.getElem?_eq_some_iff.1 hk).1
  -- every lock with a place was there before, under the number `old`
  have back : ∀ (k' : Nat) (o' : Obj) (j : Nat),
      (s.objs.set k (some { o with place := none }) ++ [some { o with owner := t }])[k']? = some (some o') →
      o'.place = some j →
      (k' ≠ k ∧ k' < s.objs.length ∧ s.objs[k']? = some (some o')) ∨
        (k' = s.objs.length ∧ o.place = some j ∧ o'.write = o.write) := by
    intro k' o' j h hp
    rcases get_append h with h | ⟨e, h⟩
    · rcases get_set h with ⟨hne, h⟩ | ⟨_, h⟩
      · exact Or.inl ⟨hne, (List.getElem?_eq_some_iff.1 h).1, h⟩
      · cases h
        cases hp
    · cases h
      rw [List.length_set] at e
      exact Or.inr ⟨e, hp, rfl⟩
  refine ⟨fun k' o' j h hp => ?_, fun k1 k2 o1 o2 j g1 g2 p1 p2 => ?_, fun j c hc hne => ?_⟩
  · rcases back k' o' j h hp with ⟨_, _, h⟩ | ⟨_, hp', hw⟩
    · exact L.fits k' o' j h hp
    · rw [hw]
      exact L.fits k o j hk hp'
  · rcases back k1 o1 j g1 p1 with ⟨n1, l1, g1⟩ | ⟨e1, q1, _⟩
    · rcases back k2 o2 j g2 p2 with ⟨n2, l2, g2⟩ | ⟨e2, q2, _⟩
      · exact L.one k1 k2 o1 o2 j g1 g2 p1 p2
      · exact absurd (L.one k1 k o1 o j g1 hk p1 q2) n1
    · rcases back k2 o2 j g2 p2 with ⟨n2, l2, g2⟩ | ⟨e2, q2, _⟩
      · exact absurd (L.one k2 k o2 o j g2 hk p2 q1) n2
      · rw [e1, e2]
  · obtain ⟨k', o', hk', hp'⟩ := L.used j c hc hne
    by_cases e : k' = k
    · subst e
      rw [hk] at hk'
      cases hk'
      refine ⟨s.objs.length, { o with owner := t }, ?_, hp'⟩
      rw [List.getElem?_append_right (by simp)]
      simp
    · refine ⟨k', o', ?_, hp'⟩
      rw [List.getElem?_append_left (by simpa using (List.getElem?_eq_some_iff.1 hk').1), List.getElem?_set,
        if_neg (fun h => e h.symm)]
      exact hk'

/-- Destroying a lock that was moved from. -/
theorem Link.drop {s : State} (L : Link s) {k : Nat} {o : Obj} (hk : s.objs[k]? = some (some o)) (hp : o.place = none) :
    Link { s with objs := s.objs.set k none } := by
  refine ⟨fun k' o' j h hp' => ?_, fun k1 k2 o1 o2 j g1 g2 p1 p2 => ?_, fun j c hc hne => ?_⟩
  · rcases get_set h with ⟨_, h⟩ | ⟨_, h⟩
    · exact L.fits k' o' j h hp'
    · cases h
  · rcases get_set g1 with ⟨_, g1⟩ | ⟨_, h⟩
    · rcases get_set g2 with ⟨_, g2⟩ | ⟨_, h⟩
      · exact L.one k1 k2 o1 o2 j g1 g2 p1 p2
      · cases h
    · cases h
  · obtain ⟨k', o', hk', hp'⟩ := L.used j c hc hne
    refine ⟨k', o', ?_, hp'⟩
    rw [List.getElem?_set, if_neg]
    · exact hk'
    · intro e
      subst e
      rw [hk] at hk'
      cases hk'
      rw [hp] at hp'
      cases hp'

/-- Every step is a step of the mutex, with a place, or none; and the invariant is kept. -/
theorem step_link {v : Variant} {s s' : State} {a : Action} (L : Link s) (h : step v s a = some s') :
    Link s' ∧ (s'.mutex = s.mutex ∨ ∃ b, RWLock.step v s.mutex b = some s'.mutex) := by
  cases a with
  | make t w i =>
    simp only [step] at h
    split at h
    · cases h
    · cases hm : RWLock.step v s.mutex (if w then .acquireWrite i else .acquireRead i) with
      | none =>
        rw [hm] at h
        cases h
      | some m =>
        rw [hm] at h
        cases h
        refine ⟨?_, Or.inr ⟨_, hm⟩⟩
        cases w
        · exact L.make (moves_acquireRead hm) (by intro b hb; unfold Fits; simpa using hb)
        · exact L.make (moves_acquireWrite hm) (by intro b hb; unfold Fits; simp at hb ⊢; rcases hb with h | h <;> simp [h])
  | move t k t' =>
    simp only [step] at h
    split at h
    · rename_i o hk
      split at h
      · cases h
        exact ⟨L.move hk, Or.inl rfl⟩
      · cases h
    · cases h
  | destroy t k =>
    simp only [step] at h
    split at h
    · rename_i o hk
      split at h
      · split at h
        · rename_i hp
          cases h
          exact ⟨L.drop hk hp, Or.inl rfl⟩
        · rename_i i hp
          split at h
          · cases hm : RWLock.step v s.mutex (.releaseWrite i) with
            | none =>
              rw [hm] at h
              cases h
            | some m =>
              rw [hm] at h
              cases h
              refine ⟨L.stay (moves_releaseWrite hm) (by decide) ?_, Or.inr ⟨_, hm⟩⟩
              intro w hw b hb
              simp only [List.mem_singleton] at hb
              subst hb
              unfold Fits at hw ⊢
              split at hw
              · rename_i e
                rw [if_pos e]
                simp
              · simp at hw
          · cases hm : RWLock.step v s.mutex (.releaseRead i) with
            | none =>
              rw [hm] at h
              cases h
            | some m =>
              rw [hm] at h
              cases h
              exact ⟨L.leave hk hp (moves_releaseRead hm), Or.inr ⟨_, hm⟩⟩
      · cases h
    · cases h
  | finish k =>
    simp only [step] at h
    split at h
    · rename_i t w i hk
      cases hm : RWLock.step v s.mutex (.notify i) with
      | none =>
        rw [hm] at h
        cases h
      | some m =>
        rw [hm] at h
        cases h
        exact ⟨L.leave hk rfl (moves_notify hm), Or.inr ⟨_, hm⟩⟩
    · cases h
  | resume k =>
    simp only [step] at h
    split at h
    · rename_i t w i hk
      cases hm : RWLock.step v s.mutex (.resume i) with
      | none =>
        rw [hm] at h
        cases h
      | some m =>
        rw [hm] at h
        cases h
        obtain ⟨c, hc⟩ := moves_resume hm
        refine ⟨?_, Or.inr ⟨_, hm⟩⟩
        obtain ⟨c', hc', hf⟩ := L.fits k _ i hk rfl
        rw [hc.1] at hc'
        cases hc'
        cases c with
        | idle => unfold Fits at hf; split at hf <;> simp at hf
        | upg => unfold Fits at hf; split at hf <;> simp at hf
        | waitR =>
          refine L.stay hc (by decide) ?_
          intro w hw b hb
          unfold Fits at hw ⊢
          cases w <;> simp [after] at hw hb ⊢
          exact hb
        | waitW =>
          refine L.stay hc (by decide) ?_
          intro w hw b hb
          unfold Fits at hw ⊢
          cases w <;> simp [after] at hw hb ⊢
          rcases hb with h | h <;> simp [h]
        | reading => exact L.stay hc (by decide) (by intro w hw b hb; simp [after] at hb; subst hb; exact hw)
        | writing => exact L.stay hc (by decide) (by intro w hw b hb; simp [after] at hb; subst hb; exact hw)
        | rel => exact L.stay hc (by decide) (by intro w hw b hb; simp [after] at hb; subst hb; exact hw)
    · cases h
  | spurious k =>
    simp only [step] at h
    split at h
    · rename_i t w i hk
      cases hm : RWLock.step v s.mutex (.spurious i) with
      | none =>
        rw [hm] at h
        cases h
      | some m =>
        rw [hm] at h
        cases h
        obtain ⟨c, hc⟩ := moves_spurious hm
        refine ⟨?_, Or.inr ⟨_, hm⟩⟩
        obtain ⟨c', hc', hf⟩ := L.fits k _ i hk rfl
        rw [hc.1] at hc'
        cases hc'
        have hne : c ≠ .idle := by
          intro e
          subst e
          unfold Fits at hf
          split at hf <;> simp at hf
        refine L.stay hc hne ?_
        intro w hw b hb
        simp only [List.mem_singleton] at hb
        subst hb
        exact hw
    · cases h

theorem reachable_facts {v : Variant} {n : Nat} {s : State} (h : Reachable v n s) :
    Link s ∧ RWLock.Reachable v n s.mutex := by
  unfold Reachable at h
  generalize hs0 : init n = s0 at h
  induction h with
  | refl =>
    subst hs0
    exact ⟨link_init n, .init⟩
  | step _ hs ih =>
    obtain ⟨L, R⟩ := ih
    obtain ⟨L', h'⟩ := step_link L hs
    refine ⟨L', ?_⟩
    rcases h' with e | ⟨b, hb⟩
    · rw [e]
      exact R
    · exact .step R hb

theorem kind_pc {m : RWLock.State} {i : Nat} {c : Cls} (h : kind m i = some c) :
    ∃ p, m.threads[i]? = some p ∧ cls p = c := by
  unfold kind at h
  cases hp : m.threads[i]? with
  | none =>
    rw [hp] at h
    cases h
  | some p =>
    rw [hp] at h
    cases h
    exact ⟨p, rfl, rfl⟩

theorem kind_reading {m : RWLock.State} {i : Nat} (h : kind m i = some .reading) : m.threads[i]? = some .reading := by
  obtain ⟨p, hp, hc⟩ := kind_pc h
  cases p <;> first | exact hp | cases hc

theorem kind_writing {m : RWLock.State} {i : Nat} (h : kind m i = some .writing) : m.threads[i]? = some .writing := by
  obtain ⟨p, hp, hc⟩ := kind_pc h
  cases p <;> first | exact hp | cases hc

theorem kind_rel {m : RWLock.State} {i : Nat} (h : kind m i = some .rel) : m.threads[i]? = some .relNotify := by
  obtain ⟨p, hp, hc⟩ := kind_pc h
  cases p <;> first | exact hp | cases hc

theorem kind_waitW {m : RWLock.State} {i : Nat} (h : kind m i = some .waitW) : RWLock.WaitsWrite m i := by
  obtain ⟨p, hp, hc⟩ := kind_pc h
  unfold RWLock.WaitsWrite
  cases p <;> first | (simp [hp]; done) | cases hc

theorem kind_waitR {m : RWLock.State} {i : Nat} (h : kind m i = some .waitR) : RWLock.WaitsRead m i := by
  obtain ⟨p, hp, hc⟩ := kind_pc h
  unfold RWLock.WaitsRead
  cases p <;> first | (simp [hp]; done) | cases hc

theorem waitsW_kind {m : RWLock.State} {i : Nat} (h : RWLock.WaitsWrite m i) : kind m i = some .waitW := by
  unfold kind
  rcases h with h | h | h | h <;> rw [h] <;> rfl

theorem waitsR_kind {m : RWLock.State} {i : Nat} (h : RWLock.WaitsRead m i) : kind m i = some .waitR := by
  unfold kind
  rcases h with h | h <;> rw [h] <;> rfl

/-- A lock that is held is held for what it is. -/
theorem holds_kind {s : State} (L : Link s) {k : Nat} {o : Obj} (h : Holds s k o) :
    ∃ i, o.place = some i ∧ kind s.mutex i = some (if o.write then .writing else .reading) := by
  obtain ⟨hk, i, hi, hp⟩ := h
  refine ⟨i, hi, ?_⟩
  obtain ⟨c, hc, hf⟩ := L.fits k o i hk hi
  have hc' := hc
  unfold kind at hc
  unfold Fits at hf
  rcases hp with hp | hp <;> rw [hp] at hc <;> cases hc <;> split at hf <;> rename_i e <;>
    first | (rw [if_pos e]; exact hc') | (rw [if_neg e]; exact hc') | (simp [cls] at hf)

/-! ## Theorems -/

/-- **C134 (exclusion).** While a scoped write lock is held, no other scoped lock is. -/
theorem scoped_exclusion {v : Variant} {n : Nat} {s : State} (h : Reachable v n s) {k k' : Nat} {o o' : Obj}
    (hk : Holds s k o) (hw : o.write = true) (hne : k' ≠ k) : ¬ Holds s k' o' := by
  intro hk'
  obtain ⟨L, R⟩ := reachable_facts h
  obtain ⟨i, hi, hc⟩ := holds_kind L hk
  obtain ⟨i', hi', hc'⟩ := holds_kind L hk'
  rw [if_pos hw] at hc
  have hii : i' ≠ i := by
    intro e
    subst e
    exact hne (L.one k' k o' o i' hk'.1 hk.1 hi' hi)
  have hx := RWLock.writer_excludes_others R (kind_writing hc) hii
  split at hc'
  · exact hx.1 (kind_writing hc')
  · exact hx.2 (Or.inl (kind_reading hc'))

/-- Thread 0 has a write lock and thread 1 waits with a read lock. -/
example : ∃ s, Reachable .base 2 s ∧ Holds s 0 ⟨0, true, some 0⟩ ∧ Waits s 1 ⟨1, false, some 1⟩ :=
  ⟨_, leads_run (as := [.make 0 true 0, .make 1 false 1]) (.refl _) rfl, ⟨rfl, 0, rfl, Or.inr rfl⟩,
    ⟨rfl, 1, rfl, Or.inl (Or.inl rfl)⟩⟩

/-- **C134 (kept).** Nothing but its own destructor or a move takes a lock from its holder: it is held until then. -/
theorem held_until_destroyed {v : Variant} {n : Nat} {s s' : State} {a : Action} (h : Reachable v n s) {k : Nat} {o : Obj}
    (hk : Holds s k o) (hs : step v s a = some s') (hd : a ≠ .destroy o.owner k)
    (hm : ∀ t', a ≠ .move o.owner k t') : Holds s' k o := by
  obtain ⟨L, R⟩ := reachable_facts h
  obtain ⟨i, hi, hc⟩ := holds_kind L hk
  have hobj := hk.1
  have hlen : k < s.objs.length := (List.getElem?_eq_some_iff.1 hobj).1
  -- it is enough that the lock and the kind of its place stay
  have fin : ∀ s' : State, s'.objs[k]? = some (some o) → kind s'.mutex i = kind s.mutex i → Holds s' k o := by
    intro s' h1 h2
    refine ⟨h1, i, hi, ?_⟩
    rw [hc] at h2
    split at h2
    · exact Or.inr (kind_writing h2)
    · exact Or.inl (kind_reading h2)
  have other : ∀ (k' : Nat) (o' : Obj) (j : Nat), s.objs[k']? = some (some o') → o'.place = some j → k' ≠ k → i ≠ j := by
    intro k' o' j h1 h2 h3 e
    subst e
    exact h3 (L.one k' k o' o i h1 hobj h2 hi)
  have keep : ∀ (k' : Nat) (x : Option Obj), k' ≠ k → (s.objs.set k' x)[k]? = some (some o) := by
    intro k' x hne
    rw [List.getElem?_set, if_neg hne]
    exact hobj
  have noIdle : kind s.mutex i ≠ some .idle := by
    rw [hc]
    split <;> simp
  cases a with
  | make t w j =>
    simp only [step] at hs
    split at hs
    · cases hs
    · cases hm : RWLock.step v s.mutex (if w then .acquireWrite j else .acquireRead j) with
      | none =>
        rw [hm] at hs
        cases hs
      | some m =>
        rw [hm] at hs
        cases hs
        have hmv : ∃ bs, Moves s.mutex m j .idle bs := by
          cases w
          · exact ⟨_, moves_acquireRead hm⟩
          · exact ⟨_, moves_acquireWrite hm⟩
        obtain ⟨bs, h1, _, h3⟩ := hmv
        refine fin _ ?_ (h3 i ?_)
        · show (s.objs ++ _)[k]? = _
          rw [List.getElem?_append_left hlen]
          exact hobj
        · intro e
          subst e
          exact noIdle h1
  | move t k' t' =>
    simp only [step] at hs
    split at hs
    · rename_i o' hk'
      split at hs
      · rename_i hcond
        cases hs
        have hne : k' ≠ k := by
          intro e
          subst e
          rw [hobj] at hk'
          cases hk'
          exact hm t' (by rw [hcond.1])
        refine fin _ ?_ rfl
        show (s.objs.set k' _ ++ _)[k]? = _
        rw [List.getElem?_append_left (by simpa using hlen)]
        exact keep k' _ hne
      · cases hs
    · cases hs
  | destroy t k' =>
    simp only [step] at hs
    split at hs
    · rename_i o' hk'
      split at hs
      · rename_i hcond
        have hne : k' ≠ k := by
          intro e
          subst e
          rw [hobj] at hk'
          cases hk'
          exact hd (by rw [hcond.1])
        split at hs
        · cases hs
          exact fin _ (keep k' _ hne) rfl
        · rename_i j hp
          have hij := other k' o' j hk' hp hne
          split at hs
          · cases hm' : RWLock.step v s.mutex (.releaseWrite j) with
            | none =>
              rw [hm'] at hs
              cases hs
            | some m =>
              rw [hm'] at hs
              cases hs
              exact fin _ hobj ((moves_releaseWrite hm').2.2 i hij)
          · cases hm' : RWLock.step v s.mutex (.releaseRead j) with
            | none =>
              rw [hm'] at hs
              cases hs
            | some m =>
              rw [hm'] at hs
              cases hs
              exact fin _ (keep k' _ hne) ((moves_releaseRead hm').2.2 i hij)
      · cases hs
    · cases hs
  | finish k' =>
    simp only [step] at hs
    split at hs
    · rename_i t w j hk'
      cases hm' : RWLock.step v s.mutex (.notify j) with
      | none =>
        rw [hm'] at hs
        cases hs
      | some m =>
        rw [hm'] at hs
        cases hs
        have hmv := moves_notify hm'
        have hne : k' ≠ k := by
          intro e
          subst e
          rw [hobj] at hk'
          cases hk'
          cases hi
          rw [hmv.1] at hc
          split at hc <;> simp at hc
        exact fin _ (keep k' _ hne) (hmv.2.2 i (other k' _ j hk' rfl hne))
    · cases hs
  | resume k' =>
    simp only [step] at hs
    split at hs
    · rename_i t w j hk'
      cases hm' : RWLock.step v s.mutex (.resume j) with
      | none =>
        rw [hm'] at hs
        cases hs
      | some m =>
        rw [hm'] at hs
        cases hs
        obtain ⟨c, hmv⟩ := moves_resume hm'
        refine fin _ hobj ?_
        show kind m i = _
        by_cases e : i = j
        · subst e
          obtain ⟨h1, ⟨b, hb, h2⟩, _⟩ := hmv
          rw [hc] at h1
          split at h1 <;> cases h1 <;> simp [after] at hb <;> subst hb <;> rename_i e <;> rw [h2, hc] <;> simp [e]
        · exact hmv.2.2 i e
    · cases hs
  | spurious k' =>
    simp only [step] at hs
    split at hs
    · rename_i t w j hk'
      cases hm' : RWLock.step v s.mutex (.spurious j) with
      | none =>
        rw [hm'] at hs
        cases hs
      | some m =>
        rw [hm'] at hs
        cases hs
        obtain ⟨c, hmv⟩ := moves_spurious hm'
        refine fin _ hobj ?_
        show kind m i = _
        by_cases e : i = j
        · subst e
          obtain ⟨h1, ⟨b, hb, h2⟩, _⟩ := hmv
          simp only [List.mem_singleton] at hb
          rw [hb] at h2
          rw [h1, h2]
        · exact hmv.2.2 i e
    · cases hs

/-- Thread 0 reads while thread 1 asks for the write lock. -/
example : ∃ s s', Reachable .base 2 s ∧ Holds s 0 ⟨0, false, some 0⟩ ∧ step .base s (.make 1 true 1) = some s' :=
  ⟨_, _, leads_run (as := [.make 0 false 0]) (.refl _) rfl, ⟨rfl, 0, rfl, Or.inl rfl⟩, rfl⟩

/-- **C134 (moves).** Moving a lock does nothing to the mutex; the new lock holds it, for the thread that has it, and the
one that was moved from is destroyed without touching the mutex. -/
theorem move_hands_over {v : Variant} {s s' : State} {t k t' : Nat} {o : Obj} (hk : Holds s k o)
    (hs : step v s (.move t k t') = some s') :
    s'.mutex = s.mutex ∧ Holds s' s.objs.length { o with owner := t' } ∧
      ∃ s'', step v s' (.destroy t k) = some s'' ∧
        s''.mutex = s.mutex ∧ Holds s'' s.objs.length { o with owner := t' } ∧ s''.objs[k]? = some none := by
  have hlen : k < s.objs.length := (List.getElem?_eq_some_iff.1 hk.1).1
  simp only [step, hk.1] at hs
  split at hs
  · rename_i hcond
    cases hs
    have hnew : (s.objs.set k (some { o with place := none }) ++ [some { o with owner := t' }])[s.objs.length]? =
        some (some { o with owner := t' }) := by
      rw [List.getElem?_append_right (by simp)]
      simp
    have hold : (s.objs.set k (some { o with place := none }) ++ [some { o with owner := t' }])[k]? =
        some (some { o with place := none }) := by
      rw [List.getElem?_append_left (by simpa using hlen)]
      simp [hlen]
    have hfree : State.busy ⟨s.mutex, s.objs.set k (some { o with place := none }) ++ [some { o with owner := t' }]⟩ t =
        false := by
      rw [← hcond.2]
      unfold State.busy
      rw [List.any_append]
      have h1 : (({ o with owner := t' } : Obj).inCall s.mutex) = false := by
        obtain ⟨_, i, hi, hp⟩ := hk
        unfold Obj.inCall
        rcases hp with hp | hp <;> simp [hi, hp]
      simp only [List.any_cons, List.any_nil, h1, Bool.and_false, Bool.or_false]
      have h2 : s.busy t = false := hcond.2
      unfold State.busy at h2
      rw [h2, List.any_eq_false]
      rw [List.any_eq_false] at h2
      intro x hx
      obtain ⟨j, hj⟩ := List.mem_iff_getElem?.1 hx
      rcases get_set hj with ⟨_, hj⟩ | ⟨_, hj⟩
      · exact h2 x (List.mem_iff_getElem?.2 ⟨j, hj⟩)
      · subst hj
        simp [Obj.inCall]
    refine ⟨rfl, ⟨hnew, hk.2⟩, ⟨s.mutex, (s.objs.set k (some { o with place := none }) ++
      [some { o with owner := t' }]).set k none⟩, ?_, rfl, ⟨?_, hk.2⟩, ?_⟩
    · simp only [step, hold]
      rw [if_pos ⟨hcond.1, hfree⟩]
    · show (List.set _ k none)[s.objs.length]? = _
      rw [List.getElem?_set, if_neg (by omega)]
      exact hnew
    · show (List.set _ k none)[k]? = _
      rw [List.getElem?_set, if_pos rfl, if_pos (by simp; omega)]
  · cases hs

/-- Thread 0 hands its write lock to thread 1. -/
example : ∃ s s', Reachable .base 2 s ∧ Holds s 0 ⟨0, true, some 0⟩ ∧ step .base s (.move 0 0 1) = some s' ∧
    (step .base s' (.destroy 0 0)).isSome = true :=
  ⟨_, _, leads_run (as := [.make 0 true 0]) (.refl _) rfl, ⟨rfl, 0, rfl, Or.inr rfl⟩, rfl, rfl⟩

/-- **C134 (scopes free the mutex).** When every lock was destroyed or moved from, the mutex is not in use. -/
theorem scopes_free {v : Variant} {n : Nat} {s : State} (h : Reachable v n s)
    (hs : ∀ (k : Nat) (o : Obj), s.objs[k]? = some (some o) → o.place = none) :
    RWLock.isInUse s.mutex = false ∧ ∀ p ∈ s.mutex.threads, p = .idle := by
  obtain ⟨L, R⟩ := reachable_facts h
  have hidle : ∀ (i : Nat) (p : Pc), s.mutex.threads[i]? = some p → p = .idle := by
    intro i p hp
    apply Classical.byContradiction
    intro hne
    have hc : kind s.mutex i = some (cls p) := by simp [kind, hp]
    obtain ⟨k, o, hk, ho⟩ := L.used i (cls p) hc (by cases p <;> simp [cls] at hne ⊢)
    rw [hs k o hk] at ho
    cases ho
  refine ⟨?_, fun p hp => ?_⟩
  · cases hu : RWLock.isInUse s.mutex with
    | false => rfl
    | true =>
      exfalso
      have no : ∀ i, ¬ (RWLock.HoldsRead s.mutex i ∨ RWLock.HoldsWrite s.mutex i ∨ RWLock.WaitsRead s.mutex i ∨
          RWLock.WaitsWrite s.mutex i) := by
        intro i hh
        unfold RWLock.HoldsRead RWLock.Upgrading RWLock.HoldsWrite RWLock.WaitsRead RWLock.WaitsWrite at hh
        rcases hh with (h | h | h) | h | (h | h) | (h | h | h | h) <;> cases hidle i _ h
      cases v with
      | base =>
        obtain ⟨i, hi⟩ := (RWLock.isInUse_exact_base R).1 hu
        exact no i hi
      | readerFirst =>
        obtain ⟨i, hi | hi⟩ := (RWLock.isInUse_readerFirst_partial R).1 hu
        · exact no i (Or.inl hi)
        · exact no i (Or.inr (Or.inl hi))
  · obtain ⟨i, hi⟩ := List.mem_iff_getElem?.1 hp
    exact hidle i p hi

/-- A write lock that was moved to another thread and destroyed there. -/
example : ∃ s, Reachable .base 2 s ∧ s.objs = [some ⟨0, true, none⟩, none] :=
  ⟨_, leads_run (as := [.make 0 true 0, .move 0 0 1, .destroy 1 1, .finish 1]) (.refl _) rfl, rfl⟩

/-- **C134 (no deadlock without nesting).** If no thread has two locks at a time, then as long as a lock is there, some
constructor or destructor can go on or some lock can be destroyed. -/
theorem no_deadlock_without_nesting {v : Variant} {n : Nat} {s : State} (h : Reachable v n s)
    (hone : ∀ (k k' : Nat) (o o' : Obj), s.objs[k]? = some (some o) → s.objs[k']? = some (some o') →
      o.place ≠ none → o'.place ≠ none → o.owner = o'.owner → k = k')
    {k : Nat} {o : Obj} (hk : s.objs[k]? = some (some o)) (ho : o.place ≠ none) :
    ∃ k', (step v s (.resume k')).isSome ∨ (step v s (.finish k')).isSome ∨ ∃ t, (step v s (.destroy t k')).isSome := by
  obtain ⟨L, R⟩ := reachable_facts h
  apply Classical.byContradiction
  intro hno
  have hrest : ∀ a, RWLock.Closing a → RWLock.step v s.mutex a = none := by
    intro a ha
    cases hm : RWLock.step v s.mutex a with
    | none => rfl
    | some m =>
      exfalso
      -- the lock at a place in use
      have owner : ∀ (i : Nat) (c : Cls), kind s.mutex i = some c → c ≠ .idle →
          ∃ (k : Nat) (o : Obj), s.objs[k]? = some (some o) ∧ o.place = some i ∧ Fits o.write c := by
        intro i c hc hne
        obtain ⟨k, o, h1, h2⟩ := L.used i c hc hne
        obtain ⟨c', h3, h4⟩ := L.fits k o i h1 h2
        rw [hc] at h3
        cases h3
        exact ⟨k, o, h1, h2, h4⟩
      have notBusy : ∀ (k i : Nat) (o : Obj), s.objs[k]? = some (some o) → o.place = some i →
          (s.mutex.threads[i]? = some .reading ∨ s.mutex.threads[i]? = some .writing) → s.busy o.owner = false := by
        intro k i o h1 h2 h3
        cases hb : s.busy o.owner with
        | false => rfl
        | true =>
          exfalso
          unfold State.busy at hb
          rw [List.any_eq_true] at hb
          obtain ⟨x, hx, hx'⟩ := hb
          cases x with
          | none => cases hx'
          | some o' =>
            simp only [Bool.and_eq_true, beq_iff_eq] at hx'
            obtain ⟨k', hk'⟩ := List.mem_iff_getElem?.1 hx
            have hp' : o'.place ≠ none := by
              intro e
              rw [Obj.inCall, e] at hx'
              cases hx'.2
            have := hone k k' o o' h1 hk' (by rw [h2]; simp) hp' hx'.1.symm
            subst this
            rw [h1] at hk'
            cases hk'
            rw [Obj.inCall, h2] at hx'
            rcases h3 with h3 | h3 <;> simp [h3] at hx'
      cases a with
      | releaseRead i =>
        have hc := (moves_releaseRead hm).1
        obtain ⟨k, o, h1, h2, h3⟩ := owner i _ hc (by decide)
        have hw : o.write = false := by
          unfold Fits at h3
          split at h3
          · simp at h3
          · rename_i e
            simpa using e
        refine hno ⟨k, Or.inr (Or.inr ⟨o.owner, ?_⟩)⟩
        have hb := notBusy k i o h1 h2 (Or.inl (kind_reading hc))
        simp [step, h1, hb, h2, hw, hm]
      | releaseWrite i =>
        have hc := (moves_releaseWrite hm).1
        obtain ⟨k, o, h1, h2, h3⟩ := owner i _ hc (by decide)
        have hw : o.write = true := by
          unfold Fits at h3
          split at h3
          · assumption
          · simp at h3
        refine hno ⟨k, Or.inr (Or.inr ⟨o.owner, ?_⟩)⟩
        have hb := notBusy k i o h1 h2 (Or.inr (kind_writing hc))
        simp [step, h1, hb, h2, hw, hm]
      | resume i =>
        obtain ⟨c, hc⟩ := moves_resume hm
        have hne : c ≠ .idle := by
          intro e
          subst e
          obtain ⟨p, hp, hcp⟩ := kind_pc hc.1
          cases p <;> cases hcp
          simp [RWLock.step, hp] at hm
        obtain ⟨k, o, h1, h2, _⟩ := owner i c hc.1 hne
        refine hno ⟨k, Or.inl ?_⟩
        obtain ⟨t, w, pl⟩ := o
        simp only at h2
        subst h2
        simp [step, h1, hm]
      | notify i =>
        have hc := (moves_notify hm).1
        obtain ⟨k, o, h1, h2, _⟩ := owner i _ hc (by decide)
        refine hno ⟨k, Or.inr (Or.inl ?_)⟩
        obtain ⟨t, w, pl⟩ := o
        simp only at h2
        subst h2
        simp [step, h1, hm]
      | acquireRead i => exact ha
      | acquireWrite i => exact ha
      | upgrade i => exact ha
      | spurious i => exact ha
  have hall := RWLock.all_idle_at_rest R hrest
  cases hi : o.place with
  | none => exact ho hi
  | some i =>
    obtain ⟨c, hc, hf⟩ := L.fits k o i hk hi
    obtain ⟨p, hp, hcp⟩ := kind_pc hc
    have := hall p (List.mem_iff_getElem?.2 ⟨i, hp⟩)
    subst this
    subst hcp
    unfold Fits at hf
    split at hf <;> simp [cls] at hf

/-- Two threads with one lock each, one of them waiting. -/
example : ∃ s, Reachable .base 2 s ∧ s.objs = [some ⟨0, false, some 0⟩, some ⟨1, true, some 1⟩] :=
  ⟨_, leads_run (as := [.make 0 false 0, .make 1 true 1]) (.refl _) rfl, rfl⟩

/-- **C134 (nested read locks, reader first).** With the reader-first mutex a thread that holds a read lock gets another
one at once. -/
theorem nested_read_reader_first {n : Nat} {s s' : State} (h : Reachable .readerFirst n s) {k t i : Nat} {o : Obj}
    (hk : Holds s k o) (hr : o.write = false) (hs : step .readerFirst s (.make t false i) = some s') :
    Holds s' s.objs.length ⟨t, false, some i⟩ := by
  obtain ⟨L, R⟩ := reachable_facts h
  obtain ⟨p, hp, hc⟩ := holds_kind L hk
  rw [if_neg (by simp [hr])] at hc
  simp only [step] at hs
  split at hs
  · cases hs
  · simp only [Bool.false_eq_true, if_false] at hs
    cases hm : RWLock.step .readerFirst s.mutex (.acquireRead i) with
    | none =>
      rw [hm] at hs
      cases hs
    | some m =>
      rw [hm] at hs
      cases hs
      refine ⟨by simp, i, rfl, Or.inl (RWLock.reader_first_grants_at_once R hm fun j hj => ?_)⟩
      have hne : p ≠ j := by
        intro e
        subst e
        rw [RWLock.HoldsWrite, kind_reading hc] at hj
        cases hj
      exact (RWLock.writer_excludes_others R hj hne).2 (Or.inl (kind_reading hc))

/-- With a writer waiting. -/
example : ∃ s s', Reachable .readerFirst 3 s ∧ Holds s 0 ⟨0, false, some 0⟩ ∧ Waits s 1 ⟨1, true, some 1⟩ ∧
    step .readerFirst s (.make 0 false 2) = some s' :=
  ⟨_, _, leads_run (as := [.make 0 false 0, .make 1 true 1]) (.refl _) rfl, ⟨rfl, 0, rfl, Or.inl rfl⟩,
    ⟨rfl, 1, rfl, Or.inr (Or.inl rfl)⟩, rfl⟩

/-- A lock whose thread is in a constructor stays as it is, but for what its own constructor does. -/
theorem held_in_call {v : Variant} {s s' : State} {a : Action} (L : Link s) {k i : Nat} {o : Obj}
    (hk : s.objs[k]? = some (some o)) (hi : o.place = some i) (hb : s.busy o.owner = true)
    (hrel : kind s.mutex i ≠ some .rel) (hs : step v s a = some s') :
    s'.objs[k]? = some (some o) ∧
      (kind s'.mutex i = kind s.mutex i ∨ ∃ c, kind s.mutex i = some c ∧ ∃ b ∈ after c, kind s'.mutex i = some b) := by
  have hlen : k < s.objs.length := (List.getElem?_eq_some_iff.1 hk).1
  have other : ∀ (k' : Nat) (o' : Obj) (j : Nat), s.objs[k']? = some (some o') → o'.place = some j → k' ≠ k → i ≠ j := by
    intro k' o' j h1 h2 h3 e
    subst e
    exact h3 (L.one k' k o' o i h1 hk h2 hi)
  have keep : ∀ (k' : Nat) (x : Option Obj), k' ≠ k → (s.objs.set k' x)[k]? = some (some o) := by
    intro k' x hne
    rw [List.getElem?_set, if_neg hne]
    exact hk
  have noIdle : kind s.mutex i ≠ some .idle := by
    obtain ⟨c, hc, hf⟩ := L.fits k o i hk hi
    rw [hc]
    intro e
    cases e
    unfold Fits at hf
    split at hf <;> simp at hf
  have notMe : ∀ (k' t : Nat) (o' : Obj), s.objs[k']? = some (some o') → o'.owner = t ∧ s.busy t = false → k' ≠ k := by
    intro k' t o' h1 h2 e
    subst e
    rw [hk] at h1
    cases h1
    rw [← h2.1, hb] at h2
    cases h2.2
  cases a with
  | make t w j =>
    simp only [step] at hs
    split at hs
    · cases hs
    · cases hm : RWLock.step v s.mutex (if w then .acquireWrite j else .acquireRead j) with
      | none =>
        rw [hm] at hs
        cases hs
      | some m =>
        rw [hm] at hs
        cases hs
        have hmv : ∃ bs, Moves s.mutex m j .idle bs := by
          cases w
          · exact ⟨_, moves_acquireRead hm⟩
          · exact ⟨_, moves_acquireWrite hm⟩
        obtain ⟨bs, h1, _, h3⟩ := hmv
        refine ⟨?_, Or.inl (h3 i ?_)⟩
        · show (s.objs ++ _)[k]? = _
          rw [List.getElem?_append_left hlen]
          exact hk
        · intro e
          subst e
          exact noIdle h1
  | move t k' t' =>
    simp only [step] at hs
    split at hs
    · rename_i o' hk'
      split at hs
      · rename_i hcond
        cases hs
        refine ⟨?_, Or.inl rfl⟩
        show (s.objs.set k' _ ++ _)[k]? = _
        rw [List.getElem?_append_left (by simpa using hlen)]
        exact keep k' _ (notMe k' t o' hk' hcond)
      · cases hs
    · cases hs
  | destroy t k' =>
    simp only [step] at hs
    split at hs
    · rename_i o' hk'
      split at hs
      · rename_i hcond
        have hne := notMe k' t o' hk' hcond
        split at hs
        · cases hs
          exact ⟨keep k' _ hne, Or.inl rfl⟩
        · rename_i j hp
          have hij := other k' o' j hk' hp hne
          split at hs
          · cases hm' : RWLock.step v s.mutex (.releaseWrite j) with
            | none =>
              rw [hm'] at hs
              cases hs
            | some m =>
              rw [hm'] at hs
              cases hs
              exact ⟨hk, Or.inl ((moves_releaseWrite hm').2.2 i hij)⟩
          · cases hm' : RWLock.step v s.mutex (.releaseRead j) with
            | none =>
              rw [hm'] at hs
              cases hs
            | some m =>
              rw [hm'] at hs
              cases hs
              exact ⟨keep k' _ hne, Or.inl ((moves_releaseRead hm').2.2 i hij)⟩
      · cases hs
    · cases hs
  | finish k' =>
    simp only [step] at hs
    split at hs
    · rename_i t w j hk'
      cases hm' : RWLock.step v s.mutex (.notify j) with
      | none =>
        rw [hm'] at hs
        cases hs
      | some m =>
        rw [hm'] at hs
        cases hs
        have hmv := moves_notify hm'
        have hne : k' ≠ k := by
          intro e
          subst e
          rw [hk] at hk'
          cases hk'
          cases hi
          exact hrel hmv.1
        exact ⟨keep k' _ hne, Or.inl (hmv.2.2 i (other k' _ j hk' rfl hne))⟩
    · cases hs
  | resume k' =>
    simp only [step] at hs
    split at hs
    · rename_i t w j hk'
      cases hm' : RWLock.step v s.mutex (.resume j) with
      | none =>
        rw [hm'] at hs
        cases hs
      | some m =>
        rw [hm'] at hs
        cases hs
        obtain ⟨c, hmv⟩ := moves_resume hm'
        refine ⟨hk, ?_⟩
        by_cases e : i = j
        · subst e
          exact Or.inr ⟨c, hmv.1, hmv.2.1⟩
        · exact Or.inl (hmv.2.2 i e)
    · cases hs
  | spurious k' =>
    simp only [step] at hs
    split at hs
    · rename_i t w j hk'
      cases hm' : RWLock.step v s.mutex (.spurious j) with
      | none =>
        rw [hm'] at hs
        cases hs
      | some m =>
        rw [hm'] at hs
        cases hs
        obtain ⟨c, hmv⟩ := moves_spurious hm'
        refine ⟨hk, Or.inl ?_⟩
        by_cases e : i = j
        · subst e
          obtain ⟨h1, ⟨b, hb, h2⟩, _⟩ := hmv
          simp only [List.mem_singleton] at hb
          rw [hb] at h2
          rw [h1, h2]
        · exact hmv.2.2 i e
    · cases hs

theorem busy_of {s : State} {k i : Nat} {o : Obj} (hk : s.objs[k]? = some (some o)) (hi : o.place = some i)
    (hw : kind s.mutex i = some .waitW ∨ kind s.mutex i = some .waitR) : s.busy o.owner = true := by
  unfold State.busy
  rw [List.any_eq_true]
  refine ⟨some o, List.mem_iff_getElem?.2 ⟨k, hk⟩, ?_⟩
  simp only [beq_self_eq_true, Bool.true_and]
  unfold Obj.inCall
  rw [hi]
  simp only
  rcases hw with hw | hw <;> obtain ⟨p, hp, hc⟩ := kind_pc hw <;> cases p <;> first | (rw [hp]; done) | cases hc | simp [hp]

theorem leads_facts {v : Variant} {n : Nat} {s s' : State} (h : Reachable v n s) (hs : Leads v s s') : Reachable v n s' := by
  induction hs with
  | refl => exact h
  | step _ ha ih => exact .step ih ha

theorem Waits.kind {s : State} {k : Nat} {o : Obj} (h : Waits s k o) :
    ∃ i, o.place = some i ∧ (kind s.mutex i = some .waitW ∨ kind s.mutex i = some .waitR) := by
  obtain ⟨_, i, hi, hw⟩ := h
  refine ⟨i, hi, ?_⟩
  rcases hw with hw | hw
  · exact Or.inr (waitsR_kind hw)
  · exact Or.inl (waitsW_kind hw)

theorem Waits.busy {s : State} {k : Nat} {o : Obj} (h : Waits s k o) : s.busy o.owner = true := by
  obtain ⟨i, hi, hw⟩ := h.kind
  exact busy_of h.1 hi hw

theorem waits_step {v : Variant} {s s' : State} {a : Action} (L : Link s) {k : Nat} {o : Obj} (h : Waits s k o)
    (hs : step v s a = some s') : Waits s' k o ∨ Holds s' k o := by
  obtain ⟨i, hi, hw⟩ := h.kind
  obtain ⟨h1, h2⟩ := held_in_call L h.1 hi h.busy (by rcases hw with hw | hw <;> rw [hw] <;> simp) hs
  have fin : ∀ c, Scoped.kind s'.mutex i = some c → c = .waitW ∨ c = .waitR ∨ c = .writing ∨ c = .reading →
      Waits s' k o ∨ Holds s' k o := by
    intro c hc hh
    rcases hh with rfl | rfl | rfl | rfl
    · exact Or.inl ⟨h1, i, hi, Or.inr (kind_waitW hc)⟩
    · exact Or.inl ⟨h1, i, hi, Or.inl (kind_waitR hc)⟩
    · exact Or.inr ⟨h1, i, hi, Or.inr (kind_writing hc)⟩
    · exact Or.inr ⟨h1, i, hi, Or.inl (kind_reading hc)⟩
  rcases h2 with h2 | ⟨c, hc, b, hb, h2⟩
  · rcases hw with hw | hw <;> rw [hw] at h2
    · exact fin _ h2 (by simp)
    · exact fin _ h2 (by simp)
  · refine fin b h2 ?_
    rcases hw with hw | hw <;> rw [hw] at hc <;> cases hc <;>
      simp only [after, List.mem_cons, List.not_mem_nil, or_false] at hb <;> rcases hb with hb | hb <;> simp [hb]

theorem holds_step_busy {v : Variant} {s s' : State} {a : Action} (L : Link s) {k : Nat} {o : Obj} (h : Holds s k o)
    (hb : s.busy o.owner = true) (hs : step v s a = some s') : Holds s' k o := by
  obtain ⟨i, hi, hc⟩ := holds_kind L h
  obtain ⟨h1, h2⟩ := held_in_call L h.1 hi hb (by rw [hc]; split <;> simp) hs
  refine ⟨h1, i, hi, ?_⟩
  have hc' : Scoped.kind s'.mutex i = some (if o.write then .writing else .reading) := by
    rcases h2 with h2 | ⟨c, hcc, b, hb', h2⟩
    · rw [h2]
      exact hc
    · rw [hc] at hcc
      cases hcc
      split at hb' <;> simp only [after, List.mem_singleton] at hb' <;> rename_i e <;> simp [e, h2, hb']
  split at hc'
  · exact Or.inr (kind_writing hc')
  · exact Or.inl (kind_reading hc')

/-- The lock that a thread just asked for is waited for or held; what is held stays so. -/
theorem make_facts {v : Variant} {s s' : State} {t i : Nat} {w : Bool} (hs : step v s (.make t w i) = some s') :
    (Waits s' s.objs.length ⟨t, w, some i⟩ ∨ Holds s' s.objs.length ⟨t, w, some i⟩) ∧
      (∀ j, Scoped.kind s.mutex j ≠ some .idle → Scoped.kind s'.mutex j = Scoped.kind s.mutex j) ∧
      ∀ (k : Nat) (x : Option Obj), s.objs[k]? = some x → s'.objs[k]? = some x := by
  simp only [step] at hs
  split at hs
  · cases hs
  · cases hm : RWLock.step v s.mutex (if w then .acquireWrite i else .acquireRead i) with
    | none =>
      rw [hm] at hs
      cases hs
    | some m =>
      rw [hm] at hs
      cases hs
      have hmv : Moves s.mutex m i .idle [.waitR, .reading, .waitW, .writing] := by
        cases w
        · obtain ⟨h1, ⟨b, hb, h2⟩, h3⟩ := moves_acquireRead hm
          exact ⟨h1, ⟨b, by simp at hb ⊢; rcases hb with h | h <;> simp [h], h2⟩, h3⟩
        · obtain ⟨h1, ⟨b, hb, h2⟩, h3⟩ := moves_acquireWrite hm
          exact ⟨h1, ⟨b, by simp at hb ⊢; rcases hb with h | h <;> simp [h], h2⟩, h3⟩
      obtain ⟨h1, ⟨b, hb, h2⟩, h3⟩ := hmv
      refine ⟨?_, fun j hj => h3 j ?_, fun k x hk => ?_⟩
      · have hnew : (s.objs ++ [some (⟨t, w, some i⟩ : Obj)])[s.objs.length]? = some (some ⟨t, w, some i⟩) := by simp
        simp only [List.mem_cons, List.not_mem_nil, or_false] at hb
        rcases hb with rfl | rfl | rfl | rfl
        · exact Or.inl ⟨hnew, i, rfl, Or.inl (kind_waitR h2)⟩
        · exact Or.inr ⟨hnew, i, rfl, Or.inl (kind_reading h2)⟩
        · exact Or.inl ⟨hnew, i, rfl, Or.inr (kind_waitW h2)⟩
        · exact Or.inr ⟨hnew, i, rfl, Or.inr (kind_writing h2)⟩
      · intro e
        subst e
        exact hj h1
      · show (s.objs ++ _)[k]? = _
        rw [List.getElem?_append_left (List.getElem?_eq_some_iff.1 hk).1]
        exact hk

theorem make_keeps {v : Variant} {s s' : State} {t i : Nat} {w : Bool} (L : Link s) {k : Nat} {o : Obj}
    (hs : step v s (.make t w i) = some s') (hk : Holds s k o) : Holds s' k o := by
  obtain ⟨p, hp, hc⟩ := holds_kind L hk
  obtain ⟨_, h2, h3⟩ := make_facts hs
  refine ⟨h3 k _ hk.1, p, hp, ?_⟩
  have := h2 p (by rw [hc]; split <;> simp)
  rw [hc] at this
  split at this
  · exact Or.inr (kind_writing this)
  · exact Or.inl (kind_reading this)

/-- **C134 (nested locks).** Refuted: a thread that has a lock and makes another one, one of them a write lock, waits for
ever, whatever the other threads do, with either class of mutex, and keeps the first. -/
theorem nested_write_refuted {v : Variant} {n : Nat} {s s' : State} (h : Reachable v n s) {k i : Nat} {o : Obj} {w : Bool}
    (hk : Holds s k o) (hw : o.write = true ∨ w = true) (hs : step v s (.make o.owner w i) = some s') :
    ∀ s'', Leads v s' s'' → Waits s'' s.objs.length ⟨o.owner, w, some i⟩ ∧ Holds s'' k o := by
  obtain ⟨L, _⟩ := reachable_facts h
  have h' : Reachable v n s' := .step h hs
  have hne : k ≠ s.objs.length := Nat.ne_of_lt (List.getElem?_eq_some_iff.1 hk.1).1
  have no : ∀ s, Reachable v n s → Holds s k o → ∀ K, K ≠ k → ¬ Holds s K ⟨o.owner, w, some i⟩ := by
    intro s hs h1 K hK h2
    rcases hw with hw | hw
    · exact scoped_exclusion hs h1 hw hK h2
    · exact scoped_exclusion hs h2 hw (fun e => hK e.symm) h1
  have start : Waits s' s.objs.length ⟨o.owner, w, some i⟩ ∧ Holds s' k o := by
    have hkk := make_keeps L hs hk
    rcases (make_facts hs).1 with hh | hh
    · exact ⟨hh, hkk⟩
    · exact absurd hh (no s' h' hkk _ hne.symm)
  intro s'' hl
  generalize s.objs.length = K at start hne
  clear hs hk
  induction hl with
  | refl => exact start
  | step hpre ha ih =>
    obtain ⟨hW, hH⟩ := ih
    have R1 := leads_facts h' hpre
    obtain ⟨L1, _⟩ := reachable_facts R1
    have hH' := holds_step_busy L1 hH hW.busy ha
    rcases waits_step L1 hW ha with hh | hh
    · exact ⟨hh, hH'⟩
    · exact absurd hh (no _ (.step R1 ha) hH' _ hne.symm)

/-- One thread is enough: a write lock inside a read lock. -/
example : ∃ s s', Reachable .base 2 s ∧ Holds s 0 ⟨0, false, some 0⟩ ∧ step .base s (.make 0 true 1) = some s' :=
  ⟨_, _, leads_run (as := [.make 0 false 0]) (.refl _) rfl, ⟨rfl, 0, rfl, Or.inl rfl⟩, rfl⟩

/-- **C134 (nested read locks).** Refuted for the base class: a thread that has a read lock while another thread waits
with a write lock, and makes another read lock, waits for ever, whatever the other threads do, and so does the writer. -/
theorem nested_read_refuted {n : Nat} {s s' : State} (h : Reachable .base n s) {k k' i : Nat} {o o' : Obj}
    (hk : Holds s k o) (hr : o.write = false) (hk' : Waits s k' o') (hw' : o'.write = true)
    (hs : step .base s (.make o.owner false i) = some s') :
    ∀ s'', Leads .base s' s'' →
      Waits s'' s.objs.length ⟨o.owner, false, some i⟩ ∧ Waits s'' k' o' ∧ Holds s'' k o := by
  obtain ⟨L, R⟩ := reachable_facts h
  have h' : Reachable .base n s' := .step h hs
  have hkk : k' ≠ k := by
    intro e
    subst e
    have := hk.1
    rw [hk'.1] at this
    cases this
    rw [hr] at hw'
    cases hw'
  -- with the first lock held, the writer is not let in
  have noW : ∀ s, Reachable .base n s → Holds s k o → ¬ Holds s k' o' := by
    intro s hs h1 h2
    exact scoped_exclusion hs h2 hw' (fun e => hkk e.symm) h1
  -- with the writer waiting, no reader is let in
  have waitsPlace : ∀ s, Reachable .base n s → Waits s k' o' → ∃ j, RWLock.WaitsWrite s.mutex j := by
    intro s hs hW
    obtain ⟨j, hj, hc⟩ := hW.kind
    obtain ⟨c, hc', hf⟩ := (reachable_facts hs).1.fits k' o' j hW.1 hj
    refine ⟨j, kind_waitW ?_⟩
    rcases hc with hc | hc
    · exact hc
    · rw [hc] at hc'
      cases hc'
      unfold Fits at hf
      rw [if_pos hw'] at hf
      simp at hf
  have noR : ∀ (s s' : State) (a : Action), Reachable .base n s → Waits s k' o' → step .base s a = some s' →
      ∀ K, Holds s' K ⟨o.owner, false, some i⟩ → s.mutex.threads[i]? = some .reading := by
    intro s s' a hs hW ha K hH
    obtain ⟨L1, R1⟩ := reachable_facts hs
    obtain ⟨L2, _⟩ := reachable_facts (.step hs ha : Reachable .base n s')
    obtain ⟨j, hj, hc⟩ := holds_kind L2 hH
    cases hj
    have hread := kind_reading hc
    obtain ⟨q, hq⟩ := waitsPlace s hs hW
    rcases (step_link L1 ha).2 with e | ⟨b, hb⟩
    · rw [← e]
      exact hread
    · exact RWLock.no_new_reader_while_writer_waits R1 hq hb hread
  have start : Waits s' s.objs.length ⟨o.owner, false, some i⟩ ∧ Waits s' k' o' ∧ Holds s' k o := by
    have hH := make_keeps L hs hk
    have hW : Waits s' k' o' := by
      obtain ⟨j, hj, hc⟩ := hk'.kind
      obtain ⟨_, h2, h3⟩ := make_facts hs
      have := h2 j (by rcases hc with hc | hc <;> rw [hc] <;> simp)
      refine ⟨h3 k' _ hk'.1, j, hj, ?_⟩
      rcases hc with hc | hc <;> rw [hc] at this
      · exact Or.inr (kind_waitW this)
      · exact Or.inl (kind_waitR this)
    refine ⟨?_, hW, hH⟩
    rcases (make_facts hs).1 with hh | hh
    · exact hh
    · exfalso
      have hread := noR s s' _ h hk' hs _ hh
      simp only [step] at hs
      split at hs
      · cases hs
      · simp [RWLock.step, hread] at hs
  intro s'' hl
  generalize s.objs.length = K at start
  clear hs hk hk'
  induction hl with
  | refl => exact start
  | step hpre ha ih =>
    obtain ⟨hK, hW, hH⟩ := ih
    have R1 := leads_facts h' hpre
    obtain ⟨L1, _⟩ := reachable_facts R1
    have hH' := holds_step_busy L1 hH hK.busy ha
    refine ⟨?_, ?_, hH'⟩
    · rcases waits_step L1 hK ha with hh | hh
      · exact hh
      · exfalso
        have hread := noR _ _ _ R1 hW ha _ hh
        obtain ⟨j, hj, hc⟩ := hK.kind
        cases hj
        unfold Scoped.kind at hc
        rw [hread] at hc
        rcases hc with hc | hc <;> cases hc
    · rcases waits_step L1 hW ha with hh | hh
      · exact hh
      · exact absurd hh (noW _ (.step R1 ha) hH')

/-- Thread 0 reads, thread 1 asks for the write lock, thread 0 makes a second read lock. -/
example : ∃ s s', Reachable .base 3 s ∧ Holds s 0 ⟨0, false, some 0⟩ ∧ Waits s 1 ⟨1, true, some 1⟩ ∧
    step .base s (.make 0 false 2) = some s' :=
  ⟨_, _, leads_run (as := [.make 0 false 0, .make 1 true 1]) (.refl _) rfl, ⟨rfl, 0, rfl, Or.inl rfl⟩,
    ⟨rfl, 1, rfl, Or.inr (Or.inl rfl)⟩, rfl⟩

/-! ## Upgrading under a scoped read lock -/

/-- Everything that can happen to the mutex from a state on. -/
inductive Goes (v : Variant) : RWLock.State → RWLock.State → Prop
  | refl (m : RWLock.State) : Goes v m m
  | step {m m' m'' : RWLock.State} {a : RWLock.Action} : Goes v m m' → RWLock.step v m' a = some m'' → Goes v m m''

/-- Nobody has the mutex and nobody gets it. -/
structure Dead (m : RWLock.State) : Prop where
  writer : m.currentWriter = true
  readers : m.numReaders = 2 ^ 32 - 1
  noUpgrade : m.pendingUpgrade = false
  nobody : ∀ (j : Nat) (c : Cls), kind m j = some c → c = .idle ∨ c = .waitR ∨ c = .waitW ∨ c = .rel

theorem Dead.goto {m : RWLock.State} (d : Dead m) {m' : RWLock.State} {i : Nat} {p : Pc}
    (h1 : m'.currentWriter = m.currentWriter) (h2 : m'.numReaders = m.numReaders)
    (h3 : m'.pendingUpgrade = m.pendingUpgrade) (h4 : m'.threads = m.threads)
    (hp : cls p = .idle ∨ cls p = .waitR ∨ cls p = .waitW ∨ cls p = .rel) : Dead (m'.goto i p) := by
  refine ⟨by rw [← d.writer, ← h1]; rfl, by rw [← d.readers, ← h2]; rfl, by rw [← d.noUpgrade, ← h3]; rfl, fun j c hc => ?_⟩
  rw [kind_goto] at hc
  split at hc
  · cases hc
    exact hp
  · refine d.nobody j c ?_
    unfold kind at hc ⊢
    rw [← h4]
    exact hc

theorem Dead.tryRead {v : Variant} {m : RWLock.State} (d : Dead m) (i k : Nat) :
    Dead (RWLock.tryRead v { m with pendingReaders := k } i) := by
  unfold RWLock.tryRead
  cases v
  · simp only
    rw [if_pos (Or.inr (Or.inr d.writer))]
    exact d.goto rfl rfl rfl rfl (by simp [cls])
  · simp only
    rw [if_pos d.writer]
    exact d.goto rfl rfl rfl rfl (by simp [cls])

theorem Dead.tryWrite2 {m : RWLock.State} (d : Dead m) (i k : Nat) :
    Dead (RWLock.tryWrite2 { m with numPendingWriters := k } i) := by
  unfold RWLock.tryWrite2
  simp only
  rw [if_pos (Or.inl d.writer)]
  exact d.goto rfl rfl rfl rfl (by simp [cls])

theorem Dead.tryWrite1 {v : Variant} {m : RWLock.State} (d : Dead m) (i k : Nat) :
    Dead (RWLock.tryWrite1 v { m with numPendingWriters := k } i) := by
  unfold RWLock.tryWrite1
  have h : ({ m with numPendingWriters := k } : RWLock.State).numReaders >
      ({ m with numPendingWriters := k } : RWLock.State).upgradeSlot := by
    unfold RWLock.State.upgradeSlot
    simp only [d.noUpgrade, d.readers]
    decide
  rw [if_pos h]
  exact d.goto rfl rfl rfl rfl (by simp [cls])

theorem Dead.step {v : Variant} {m m' : RWLock.State} {a : RWLock.Action} (d : Dead m)
    (h : RWLock.step v m a = some m') : Dead m' := by
  have none : ∀ (j : Nat) (p : Pc), m.threads[j]? = some p →
      cls p = .idle ∨ cls p = .waitR ∨ cls p = .waitW ∨ cls p = .rel := by
    intro j p hp
    exact d.nobody j _ (by simp [kind, hp])
  cases a with
  | acquireRead i =>
    simp only [RWLock.step] at h
    split at h
    · cases h
      unfold RWLock.acquireRead
      cases v
      · exact d.tryRead i _
      · exact d.tryRead i m.pendingReaders
    · cases h
  | acquireWrite i =>
    simp only [RWLock.step] at h
    split at h
    · cases h
      unfold RWLock.acquireWrite
      cases v
      · exact d.tryWrite1 i _
      · exact d.tryWrite1 i m.numPendingWriters
    · cases h
  | releaseRead i =>
    simp only [RWLock.step] at h
    split at h
    · rename_i hp
      simpa [cls] using none i _ hp
    · cases h
  | releaseWrite i =>
    simp only [RWLock.step] at h
    split at h
    · rename_i hp
      simpa [cls] using none i _ hp
    · cases h
  | upgrade i =>
    simp only [RWLock.step] at h
    split at h
    · rename_i hp
      simpa [cls] using none i _ hp
    · cases h
  | resume i =>
    simp only [RWLock.step] at h
    split at h
    · cases h
      exact d.tryRead i m.pendingReaders
    · cases h
      exact d.tryWrite1 i m.numPendingWriters
    · cases h
      unfold RWLock.resumeWrite2
      cases v
      · exact d.tryWrite2 i m.numPendingWriters
      · simp only [d.writer, true_or, if_true]
        exact d.goto rfl rfl rfl rfl (by simp [cls])
    · rename_i hp
      simpa [cls] using none i _ hp
    · cases h
  | notify i =>
    simp only [RWLock.step] at h
    split at h
    · cases h
      have g := d.goto (m' := m) (i := i) (p := .idle) rfl rfl rfl rfl (by simp [cls])
      exact ⟨g.writer, g.readers, g.noUpgrade, fun j c hc => g.nobody j c (by rw [← kind_notifyWriterFinished]; exact hc)⟩
    · cases h
  | spurious i =>
    simp only [RWLock.step] at h
    split at h
    · cases h
      exact d.goto rfl rfl rfl rfl (by simp [cls])
    · cases h
      exact d.goto rfl rfl rfl rfl (by simp [cls])
    · cases h
      exact d.goto rfl rfl rfl rfl (by simp [cls])
    · rename_i hp
      simpa [cls] using none i _ hp
    · cases h

/-- **C134 (upgrading).** Refuted: the destructor of a read lock whose mutex was upgraded in the meantime with success
(place `i` writes) calls `releaseReadLock`; after it the counter of readers stands at 2^32 - 1, the mutex is locked for
writing by nobody, and no lock is given to anybody any more, whatever happens. -/
theorem upgrade_in_scope_refuted {v : Variant} {n : Nat} {m : RWLock.State} (h : RWLock.Reachable v n m) {i : Nat}
    (hi : RWLock.HoldsWrite m i) :
    ∀ m', Goes v (RWLock.releaseRead m i) m' →
      m'.numReaders = 2 ^ 32 - 1 ∧ m'.currentWriter = true ∧
        ∀ j, ¬ RWLock.HoldsRead m' j ∧ ¬ RWLock.HoldsWrite m' j := by
  have hinv := RWLock.Inv.of_reachable h
  have hc : 0 < m.threads.count .writing := RWLock.count_pos hi
  have hw : m.currentWriter = true := by
    have := hinv.writer
    split at this
    · assumption
    · omega
  have hr : m.numReaders = 0 := hinv.excl hw
  have hup : m.pendingUpgrade = false := by
    have h1 := hinv.readers
    have h2 := hinv.upgrade
    split at h2
    · omega
    · rename_i e
      simpa using e
  have hl : i < m.threads.length := RWLock.lt_of_some hi
  have start : Dead (RWLock.releaseRead m i) := by
    have e : RWLock.releaseRead m i = ({ m with numReaders := 2 ^ 32 - 1 } : RWLock.State).goto i .idle := by
      unfold RWLock.releaseRead
      simp only [hr]
      rw [if_neg]
      · rfl
      · unfold RWLock.State.upgradeSlot RWLock.State.goto RWLock.dec
        simp [hup]
    rw [e]
    refine ⟨hw, rfl, hup, fun j c hcj => ?_⟩
    rw [kind_goto] at hcj
    split at hcj
    · cases hcj
      exact Or.inl rfl
    · rename_i hn
      have hk : kind m j = some c := hcj
      obtain ⟨p, hp, hcp⟩ := kind_pc hk
      have hji : j ≠ i := by
        intro ee
        subst ee
        exact hn ⟨rfl, hl⟩
      obtain ⟨x1, x2⟩ := RWLock.writer_excludes_others h hi hji
      unfold RWLock.HoldsRead RWLock.Upgrading at x2
      unfold RWLock.HoldsWrite at x1
      cases p <;> subst hcp <;> first | (simp [cls]; done) | (exfalso; simp [hp] at x1 x2)
  intro m' hg
  have d : Dead m' := by
    induction hg with
    | refl => exact start
    | step _ ha ih => exact ih.step ha
  refine ⟨d.readers, d.writer, fun j => ⟨fun hj => ?_, fun hj => ?_⟩⟩
  · unfold RWLock.HoldsRead RWLock.Upgrading at hj
    rcases hj with hj | hj | hj <;> have := d.nobody j _ (by unfold kind; rw [hj]; rfl) <;> simp [cls] at this
  · unfold RWLock.HoldsWrite at hj
    have := d.nobody j _ (by unfold kind; rw [hj]; rfl)
    simp [cls] at this

/-- A scoped read lock, made and upgraded. -/
example : ∃ m, RWLock.Reachable .base 2 m ∧ RWLock.HoldsWrite m 0 :=
  ⟨_, RWLock.reachable_run (as := [.acquireRead 0, .upgrade 0]) .init rfl, rfl⟩

end Verif.RWLock.Scoped
