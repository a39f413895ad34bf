import Verif.Channels.Concurrent

/-!
# Properties of channel groups used from several threads (C143)
-/

namespace Verif.Channels.Concurrent

open Verif (Outcome)

/-! ### Specification -/

/-- The states that programs starting with `s0` get to, with any order of the steps of the threads. -/
inductive Reachable (s0 : Store) (progs : List (List Call)) : State → Prop where
  | start : Reachable s0 progs (State.start s0 progs)
  | step {s s' : State} (t : Nat) : Reachable s0 progs s → stepThread s t = some s' → Reachable s0 progs s'

/-- Calls made one after the other, with these results. -/
inductive Sequential : Store → List (Call × Res) → Store → Prop where
  | nil (s : Store) : Sequential s [] s
  | snoc {s s1 s2 : Store} {l : List (Call × Res)} {c : Call} {r : Res} :
      Sequential s l s1 → exec s1 c = .ok (s2, r) → Sequential s (l ++ [(c, r)]) s2

/-- What a single thread does: the calls of its program in order, and what follows from their results. -/
inductive Follows : List Call → List (Call × Res) → List Call → Prop where
  | nil (p : List Call) : Follows p [] p
  | snoc {p q : List Call} {l : List (Call × Res)} {c : Call} {r : Res} :
      Follows p l (c :: q) → Follows p (l ++ [(c, r)]) (after c r ++ q)

/-- The calls of one thread out of the log. -/
def ofThread (t : Nat) (l : List (Nat × Call × Res)) : List (Call × Res) :=
  (l.filter fun e => e.1 = t).map fun e => e.2

/-- The calls of a thread that have not had their effect. -/
def Thread.pending (th : Thread) : List Call :=
  match th.phase with
  | .locking c _ _ => c :: th.todo
  | .loaded c _ _ => c :: th.todo
  | _ => th.todo

/-- A thread that has nothing left to do. -/
def Thread.finished (th : Thread) : Prop := th.todo = [] ∧ th.phase = .idle

/-- The mutexes a thread holds. -/
def Phase.held : Phase → List Nat
  | .idle => []
  | .locking _ h _ => h
  | .loaded _ h _ => h
  | .unlocking h => h

/-- Two groups with nothing in them. -/
def twoGroups : Store := ⟨[], [], [[], []]⟩

/-- A group with a channel of one number. -/
def oneChannel : Store := ⟨[⟨7, .matrix 1 1 [3]⟩], [], [[("A", 0)], []]⟩

/-! ### Small facts -/

theorem getElem?_set_cases {α : Type} {l : List α} {t u : Nat} {a b : α}
    (h : (l.set t a)[u]? = some b) : (u = t ∧ b = a ∧ t < l.length) ∨ (u ≠ t ∧ l[u]? = some b) := by
  by_cases e : u = t
  · subst e
    rw [List.getElem?_set] at h
    simp only [if_true] at h
    split at h
    · next hl => simp only [Option.some.injEq] at h; exact .inl ⟨rfl, h.symm, hl⟩
    · simp at h
  · rw [List.getElem?_set_ne (fun x => e x.symm)] at h
    exact .inr ⟨e, h⟩

theorem lift_ok {x : Option (Outcome (Store × Out))} {s : Store} {r : Res} (h : lift x = .ok (s, r)) :
    ∃ o, x = some (.ok (s, o)) ∧ r = .out o := by
  cases x with
  | none => simp [lift] at h
  | some y =>
    cases y with
    | ok p =>
      simp only [lift, Outcome.bind, Outcome.ok.injEq, Prod.mk.injEq] at h
      obtain ⟨p1, p2⟩ := p
      simp only at h
      exact ⟨p2, by rw [← h.1], h.2.symm⟩
    | abort => simp [lift, Outcome.bind] at h
    | ub => simp [lift, Outcome.bind] at h
    | exc => simp [lift, Outcome.bind] at h

/-- A call leaves the groups alone that it does not use. -/
theorem exec_frame {s s' : Store} {c : Call} {r : Res} (h : exec s c = .ok (s', r)) {g : Nat} {m : Group}
    (hg : s.groups[g]? = some m) (hu : g ∉ uses c) : s'.groups[g]? = some m := by
  cases c with
  | add g' n t =>
    have hu : g ≠ g' := by simpa [uses, locks] using hu
    obtain ⟨o, h, -⟩ := lift_ok h
    simp only [step] at h
    split at h
    · simp at h
    · split at h
      · simp at h
      · simp only [Option.some.injEq, Outcome.ok.injEq, Prod.mk.injEq] at h
        rw [← h.1]
        simp only
        rw [List.getElem?_set_ne (fun e => hu e.symm)]
        exact hg
  | has g' n =>
    obtain ⟨o, h, -⟩ := lift_ok h
    simp only [step] at h
    split at h
    · simp at h
    · simp only [Option.some.injEq, Outcome.ok.injEq, Prod.mk.injEq] at h
      rw [← h.1]; exact hg
  | setter g' n t v =>
    obtain ⟨o, h, -⟩ := lift_ok h
    simp only [step] at h
    split at h
    · simp at h
    · simp only [Option.some.injEq, Outcome.ok.injEq, Prod.mk.injEq] at h
      rw [← h.1]; exact hg
  | remove g' n =>
    have hu : g ≠ g' := by simpa [uses, locks] using hu
    obtain ⟨o, h, -⟩ := lift_ok h
    simp only [step] at h
    split at h
    · simp at h
    · split at h
      · simp only [Option.some.injEq, Outcome.ok.injEq, Prod.mk.injEq] at h
        rw [← h.1]
        simp only
        rw [List.getElem?_set_ne (fun e => hu e.symm)]
        exact hg
      · simp at h
  | clone g' =>
    obtain ⟨o, h, -⟩ := lift_ok h
    simp only [step] at h
    split at h
    · simp at h
    · simp only [Option.some.injEq, Outcome.ok.injEq, Prod.mk.injEq] at h
      rw [← h.1]
      simp only
      rw [List.getElem?_append_left (List.getElem?_eq_some_iff.1 hg).1]
      exact hg
  | assign d g' =>
    have hu : g ≠ d := by
      intro e; apply hu; rw [e]; simp [uses]
    obtain ⟨o, h, -⟩ := lift_ok h
    simp only [step] at h
    split at h
    · simp only [Option.some.injEq, Outcome.ok.injEq, Prod.mk.injEq] at h
      rw [← h.1]
      simp only
      rw [List.getElem?_set_ne (fun e => hu e.symm)]
      exact hg
    · simp at h
  | compare l r' =>
    simp only [exec] at h
    split at h
    · next a b ha hb =>
      cases hc : isChannelGroupEqual s (decide (l = r')) a b <;> rw [hc] at h <;> simp [Outcome.bind] at h
      rw [← h.1]; exact hg
    · simp at h
  | assignTo g' n t v =>
    simp only [exec] at h
    split at h
    · next m' hm =>
      cases hc : resolve s m' n t <;> rw [hc] at h <;> simp [Outcome.bind] at h
      rw [← h.1]; exact hg
    · simp at h
  | poke i v =>
    simp only [exec] at h
    split at h
    · simp only [Outcome.ok.injEq, Prod.mk.injEq] at h
      rw [← h.1]; exact hg
    · simp at h

/-- What a thread has read is still so. -/
def Current (s : Store) (snap : List (Nat × Group)) : Prop := ∀ e ∈ snap, s.groups[e.1]? = some e.2

theorem believe_current {s : Store} {snap : List (Nat × Group)} (h : Current s snap) : believe s snap = s := by
  have : ∀ (l : List (Nat × Group)), (∀ e ∈ l, s.groups[e.1]? = some e.2) →
      l.foldl (fun gs e => gs.set e.1 e.2) s.groups = s.groups := by
    intro l
    induction l with
    | nil => intro _; rfl
    | cons e l ih =>
      intro hl
      have he := hl e (by simp)
      have hs : s.groups.set e.1 e.2 = s.groups := by
        apply List.ext_getElem?
        intro i
        by_cases hi : i = e.1
        · subst hi
          rw [List.getElem?_set]
          simp only [if_true, (List.getElem?_eq_some_iff.1 he).1, he]
        · rw [List.getElem?_set_ne (fun x => hi x.symm)]
      rw [List.foldl_cons, hs]
      exact ih fun e' he' => hl e' (by simp [he'])
  unfold believe
  rw [this snap h]

theorem snapshot_current (s : Store) (gs : List Nat) : Current s (snapshot s gs) := by
  intro e he
  simp only [snapshot, List.mem_filterMap, Option.map_eq_some_iff] at he
  obtain ⟨g, -, m, hm, rfl⟩ := he
  exact hm

theorem snapshot_mem {s : Store} {gs : List Nat} {e : Nat × Group} (he : e ∈ snapshot s gs) : e.1 ∈ gs := by
  simp only [snapshot, List.mem_filterMap, Option.map_eq_some_iff] at he
  obtain ⟨g, hg, m, -, rfl⟩ := he
  exact hg

theorem locks_nodup (c : Call) : (locks c).Nodup := by
  cases c <;> simp [locks]
  split
  · simp
  · next h => simp [h]

/-! ### The invariant -/

/-- Where a thread may be. -/
def PhaseOk (s : Store) : Phase → Prop
  | .idle => True
  | .locking c held need => held.reverse ++ need = locks c
  | .loaded c held snap => held.reverse = locks c ∧ Current s snap ∧ ∀ e ∈ snap, e.1 ∈ uses c
  | .unlocking held => held.Nodup

/-- No thread copies a group with `operator=`. -/
def NoAssign (c : Call) : Prop := ∀ d g, c ≠ .assign d g

theorem uses_locks {c : Call} (h : NoAssign c) : uses c = locks c := by
  cases c <;> first | rfl | exact absurd rfl (h _ _)

structure Inv (s0 : Store) (progs : List (List Call)) (s : State) : Prop where
  own : ∀ (t : Nat) (th : Thread), s.threads[t]? = some th → ∀ g, g ∈ th.phase.held ↔ s.owner g = some t
  phase : ∀ (t : Nat) (th : Thread), s.threads[t]? = some th → PhaseOk s.store th.phase
  pend : ∀ (t : Nat) (th : Thread), s.threads[t]? = some th → ∀ c ∈ th.pending, NoAssign c
  seq : Sequential s0 (s.log.map fun e => e.2) s.store
  fol : ∀ (t : Nat) (th : Thread), s.threads[t]? = some th → ∃ p, progs[t]? = some p ∧ Follows p (ofThread t s.log) th.pending
  len : s.threads.length = progs.length
  ownLt : ∀ (g t : Nat), s.owner g = some t → t < s.threads.length

theorem after_noAssign {c c' : Call} {r : Res} (h : c' ∈ after c r) : NoAssign c' := by
  intro d g e
  subst e
  unfold after at h
  split at h <;> simp at h

theorem held_nodup {s : Store} {p : Phase} (h : PhaseOk s p) : p.held.Nodup := by
  cases p with
  | idle => simp [Phase.held]
  | locking c held need =>
    simp only [PhaseOk] at h
    have := locks_nodup c
    rw [← h] at this
    have := (List.nodup_append.1 this).1
    simpa [Phase.held, List.Nodup, List.pairwise_reverse, ne_comm] using this
  | loaded c held snap =>
    simp only [PhaseOk] at h
    have := locks_nodup c
    rw [← h.1] at this
    simpa [Phase.held, List.Nodup, List.pairwise_reverse, ne_comm] using this
  | unlocking held => exact h

theorem ofThread_append (t : Nat) (l : List (Nat × Call × Res)) (u : Nat) (c : Call) (r : Res) :
    ofThread t (l ++ [(u, c, r)]) = if u = t then ofThread t l ++ [(c, r)] else ofThread t l := by
  unfold ofThread
  rw [List.filter_append]
  by_cases h : u = t
  · simp [h]
  · simp [h]

/-- Steps that touch neither the store nor the log nor a mutex. -/
theorem Inv.quiet {s0 : Store} {progs : List (List Call)} {s : State} (hi : Inv s0 progs s) {t : Nat} {th th' : Thread}
    (ht : s.threads[t]? = some th) (hh : th'.phase.held = th.phase.held) (hp : PhaseOk s.store th'.phase)
    (hpend : th'.pending = th.pending) : Inv s0 progs { s with threads := s.threads.set t th' } := by
  refine ⟨?_, ?_, ?_, hi.seq, ?_, by simpa using hi.len, by simpa using hi.ownLt⟩
  · intro u thu hu
    rcases getElem?_set_cases hu with ⟨rfl, rfl, -⟩ | ⟨-, hu⟩
    · rw [hh]; exact hi.own _ _ ht
    · exact hi.own _ _ hu
  · intro u thu hu
    rcases getElem?_set_cases hu with ⟨rfl, rfl, -⟩ | ⟨-, hu⟩
    · exact hp
    · exact hi.phase _ _ hu
  · intro u thu hu
    rcases getElem?_set_cases hu with ⟨rfl, rfl, -⟩ | ⟨-, hu⟩
    · rw [hpend]; exact hi.pend _ _ ht
    · exact hi.pend _ _ hu
  · intro u thu hu
    rcases getElem?_set_cases hu with ⟨rfl, rfl, -⟩ | ⟨-, hu⟩
    · rw [hpend]; exact hi.fol _ _ ht
    · exact hi.fol _ _ hu

theorem Inv.step {s0 : Store} {progs : List (List Call)} {s s' : State} (hi : Inv s0 progs s) {t : Nat}
    (h : stepThread s t = some s') : Inv s0 progs s' := by
  unfold stepThread at h
  split at h
  · simp at h
  · split at h
    · simp at h
    · next th ht =>
      split at h
      · -- idle
        next hph =>
        split at h
        · simp at h
        · next c rest htd =>
          simp only [Option.some.injEq] at h
          subst h
          refine hi.quiet ht ?_ ?_ ?_
          · simp [hph, Phase.held]
          · simp [PhaseOk]
          · simp [Thread.pending, hph, htd]
      · -- locking, one more
        next c held g need hph =>
        split at h
        · simp at h
        · next hfree =>
          simp only [Option.some.injEq] at h
          subst h
          have hpt := hi.phase _ _ ht
          rw [hph] at hpt
          have hpd : (Thread.mk th.todo (.locking c (g :: held) need)).pending = th.pending := by
            simp [Thread.pending, hph]
          refine ⟨?_, ?_, ?_, hi.seq, ?_, by simpa using hi.len, ?_⟩
          · intro u thu hu x
            rcases getElem?_set_cases hu with ⟨rfl, rfl, -⟩ | ⟨hne, hu⟩
            · have hown := hi.own _ _ ht x
              rw [hph] at hown
              simp only [Phase.held, List.mem_cons] at hown ⊢
              by_cases hx : x = g
              · simp [hx]
              · simp [hx, hown]
            · have hown := hi.own _ _ hu x
              by_cases hx : x = g
              · subst hx
                simp only [if_true, Option.some.injEq]
                rw [hown, hfree]
                simp only [reduceCtorEq, false_iff]
                exact fun e => hne e.symm
              · simp [hx, hown]
          · intro u thu hu
            rcases getElem?_set_cases hu with ⟨rfl, rfl, -⟩ | ⟨-, hu⟩
            · simpa [PhaseOk] using hpt
            · exact hi.phase _ _ hu
          · intro u thu hu
            rcases getElem?_set_cases hu with ⟨rfl, rfl, -⟩ | ⟨-, hu⟩
            · rw [hpd]; exact hi.pend _ _ ht
            · exact hi.pend _ _ hu
          · intro u thu hu
            rcases getElem?_set_cases hu with ⟨rfl, rfl, -⟩ | ⟨-, hu⟩
            · rw [hpd]; exact hi.fol _ _ ht
            · exact hi.fol _ _ hu
          · intro x u hx
            simp only at hx
            simp only [List.length_set]
            split at hx
            · simp only [Option.some.injEq] at hx
              subst hx
              exact (List.getElem?_eq_some_iff.1 ht).1
            · exact hi.ownLt _ _ hx
      · -- locking, done
        next c held hph =>
        simp only [Option.some.injEq] at h
        subst h
        have hpt := hi.phase _ _ ht
        rw [hph] at hpt
        refine hi.quiet ht ?_ ?_ ?_
        · simp [hph, Phase.held]
        · exact ⟨by simpa [PhaseOk] using hpt, snapshot_current _ _, fun e he => snapshot_mem he⟩
        · simp [Thread.pending, hph]
      · -- loaded
        next c held snap hph =>
        have hpt := hi.phase _ _ ht
        rw [hph] at hpt
        obtain ⟨hheld, hcur, hus⟩ := hpt
        rw [believe_current hcur] at h
        have hpd0 : th.pending = c :: th.todo := by simp [Thread.pending, hph]
        have hna : NoAssign c := hi.pend _ _ ht c (by rw [hpd0]; simp)
        split at h
        · next st r hex =>
          simp only [Option.some.injEq] at h
          subst h
          have hpd : (Thread.mk (after c r ++ th.todo) (.unlocking held)).pending = after c r ++ th.todo := rfl
          refine ⟨?_, ?_, ?_, ?_, ?_, by simpa using hi.len, by simpa using hi.ownLt⟩
          · intro u thu hu
            rcases getElem?_set_cases hu with ⟨rfl, rfl, -⟩ | ⟨-, hu⟩
            · have := hi.own _ _ ht
              rw [hph] at this
              exact this
            · exact hi.own _ _ hu
          · intro u thu hu
            rcases getElem?_set_cases hu with ⟨rfl, rfl, -⟩ | ⟨hne, hu⟩
            · have := locks_nodup c
              rw [← hheld] at this
              simpa [PhaseOk, List.Nodup, List.pairwise_reverse, ne_comm] using this
            · have hpu := hi.phase _ _ hu
              cases hphu : thu.phase with
              | idle => trivial
              | locking c' h' n' => rw [hphu] at hpu; exact hpu
              | unlocking h' => rw [hphu] at hpu; exact hpu
              | loaded c' h' snap' =>
                rw [hphu] at hpu
                obtain ⟨a1, a2, a3⟩ := hpu
                refine ⟨a1, ?_, a3⟩
                intro e he
                refine exec_frame hex (a2 e he) ?_
                intro hmem
                rw [uses_locks hna, ← hheld, List.mem_reverse] at hmem
                have hna' : NoAssign c' := hi.pend _ _ hu c' (by simp [Thread.pending, hphu])
                have hm' := a3 e he
                rw [uses_locks hna', ← a1, List.mem_reverse] at hm'
                have o1 := (hi.own _ _ ht e.1).1 (by rw [hph]; exact hmem)
                have o2 := (hi.own _ _ hu e.1).1 (by rw [hphu]; exact hm')
                rw [o1] at o2
                simp only [Option.some.injEq] at o2
                exact hne o2.symm
          · intro u thu hu
            rcases getElem?_set_cases hu with ⟨rfl, rfl, -⟩ | ⟨-, hu⟩
            · rw [hpd]
              intro c' hc'
              rcases List.mem_append.1 hc' with h1 | h1
              · exact after_noAssign h1
              · exact hi.pend _ _ ht c' (by rw [hpd0]; simp [h1])
            · exact hi.pend _ _ hu
          · rw [List.map_append]
            exact .snoc hi.seq hex
          · intro u thu hu
            rcases getElem?_set_cases hu with ⟨rfl, rfl, -⟩ | ⟨hne, hu⟩
            · obtain ⟨p, hp, hf⟩ := hi.fol _ _ ht
              refine ⟨p, hp, ?_⟩
              simp only
              rw [ofThread_append, if_pos rfl, hpd]
              rw [hpd0] at hf
              exact .snoc hf
            · obtain ⟨p, hp, hf⟩ := hi.fol _ _ hu
              refine ⟨p, hp, ?_⟩
              simp only
              rw [ofThread_append, if_neg (fun e => hne e.symm)]
              exact hf
        · simp only [Option.some.injEq] at h
          subst h
          exact ⟨hi.own, hi.phase, hi.pend, hi.seq, hi.fol, hi.len, hi.ownLt⟩
      · -- unlocking one
        next g held hph =>
        simp only [Option.some.injEq] at h
        subst h
        have hpt := hi.phase _ _ ht
        rw [hph] at hpt
        have hnd : g ∉ held ∧ held.Nodup := List.nodup_cons.1 hpt
        have hog : s.owner g = some t := (hi.own _ _ ht g).1 (by rw [hph]; simp [Phase.held])
        have hpd : (Thread.mk th.todo (.unlocking held)).pending = th.pending := by
          simp [Thread.pending, hph]
        refine ⟨?_, ?_, ?_, hi.seq, ?_, by simpa using hi.len, ?_⟩
        · intro u thu hu x
          rcases getElem?_set_cases hu with ⟨rfl, rfl, -⟩ | ⟨hne, hu⟩
          · have hown := hi.own _ _ ht x
            rw [hph] at hown
            simp only [Phase.held, List.mem_cons] at hown ⊢
            by_cases hx : x = g
            · subst hx; simp [hnd.1]
            · simp only [hx, false_or, if_false] at hown ⊢
              exact hown
          · have hown := hi.own _ _ hu x
            by_cases hx : x = g
            · subst hx
              rw [hown, hog]
              simp only [if_true, reduceCtorEq, Option.some.injEq, iff_false]
              exact fun e => hne e.symm
            · simp [hx, hown]
        · intro u thu hu
          rcases getElem?_set_cases hu with ⟨rfl, rfl, -⟩ | ⟨-, hu⟩
          · exact hnd.2
          · exact hi.phase _ _ hu
        · intro u thu hu
          rcases getElem?_set_cases hu with ⟨rfl, rfl, -⟩ | ⟨-, hu⟩
          · rw [hpd]; exact hi.pend _ _ ht
          · exact hi.pend _ _ hu
        · intro u thu hu
          rcases getElem?_set_cases hu with ⟨rfl, rfl, -⟩ | ⟨-, hu⟩
          · rw [hpd]; exact hi.fol _ _ ht
          · exact hi.fol _ _ hu
        · intro x u hx
          simp only at hx
          simp only [List.length_set]
          split at hx
          · simp at hx
          · exact hi.ownLt _ _ hx
      · -- unlocking, done
        next hph =>
        simp only [Option.some.injEq] at h
        subst h
        refine hi.quiet ht ?_ trivial ?_
        · simp [hph, Phase.held]
        · simp [Thread.pending, hph]

theorem Inv.start {s0 : Store} {progs : List (List Call)} (hp : ∀ p ∈ progs, ∀ c ∈ p, NoAssign c) :
    Inv s0 progs (State.start s0 progs) := by
  have key : ∀ (t : Nat) th, (progs.map fun p => Thread.mk p .idle)[t]? = some th →
      ∃ p, progs[t]? = some p ∧ th = ⟨p, .idle⟩ := by
    intro t th h
    rw [List.getElem?_map, Option.map_eq_some_iff] at h
    obtain ⟨p, h1, h2⟩ := h
    exact ⟨p, h1, h2.symm⟩
  refine ⟨?_, ?_, ?_, .nil _, ?_, by simp [State.start], ?_⟩
  · intro t th h g
    obtain ⟨p, -, rfl⟩ := key t th h
    simp [State.start, Phase.held]
  · intro t th h
    obtain ⟨p, -, rfl⟩ := key t th h
    trivial
  · intro t th h c hc
    obtain ⟨p, h1, rfl⟩ := key t th h
    exact hp p (List.mem_of_getElem? h1) c hc
  · intro t th h
    obtain ⟨p, h1, rfl⟩ := key t th h
    exact ⟨p, h1, .nil p⟩
  · intro g t h
    simp [State.start] at h

theorem inv_of_reachable {s0 : Store} {progs : List (List Call)} (hp : ∀ p ∈ progs, ∀ c ∈ p, NoAssign c) {s : State}
    (h : Reachable s0 progs s) : Inv s0 progs s := by
  induction h with
  | start => exact .start hp
  | step t _ hs ih => exact ih.step hs

/-! ### What several threads see -/

/-- Whatever order the threads run in, the calls that take the mutexes have the effects and the results they would have
had one after the other, in the order in which they took effect; and each thread has made the calls of its program, in
their order. -/
theorem linearizable {s0 : Store} {progs : List (List Call)} (hp : ∀ p ∈ progs, ∀ c ∈ p, NoAssign c) {s : State}
    (h : Reachable s0 progs s) :
    Sequential s0 (s.log.map fun e => e.2) s.store ∧
      ∀ t p, progs[t]? = some p → ∃ rest, Follows p (ofThread t s.log) rest := by
  have hi := inv_of_reachable hp h
  refine ⟨hi.seq, fun t p ht => ?_⟩
  have hl : t < s.threads.length := by rw [hi.len]; exact (List.getElem?_eq_some_iff.1 ht).1
  obtain ⟨p', h1, h2⟩ := hi.fol t _ (List.getElem?_eq_getElem hl)
  rw [ht] at h1
  simp only [Option.some.injEq] at h1
  subst h1
  exact ⟨_, h2⟩

/-- When all threads are done, each has made all the calls of its program. -/
theorem linearizable_finished {s0 : Store} {progs : List (List Call)} (hp : ∀ p ∈ progs, ∀ c ∈ p, NoAssign c)
    {s : State} (h : Reachable s0 progs s) (hf : ∀ th ∈ s.threads, th.finished) :
    Sequential s0 (s.log.map fun e => e.2) s.store ∧
      (∀ t p, progs[t]? = some p → Follows p (ofThread t s.log) []) ∧ ∀ g, s.owner g = none := by
  have hi := inv_of_reachable hp h
  refine ⟨hi.seq, fun t p ht => ?_, fun g => ?_⟩
  · have hl : t < s.threads.length := by rw [hi.len]; exact (List.getElem?_eq_some_iff.1 ht).1
    have hg := List.getElem?_eq_getElem hl
    obtain ⟨p', h1, h2⟩ := hi.fol t _ hg
    rw [ht] at h1
    simp only [Option.some.injEq] at h1
    subst h1
    obtain ⟨e1, e2⟩ := hf _ (List.mem_of_getElem? hg)
    simpa [Thread.pending, e1, e2] using h2
  · cases ho : s.owner g with
    | none => rfl
    | some t =>
      have hl := hi.ownLt g t ho
      have hg := List.getElem?_eq_getElem hl
      have := (hi.own t _ hg g).2 ho
      rw [(hf _ (List.mem_of_getElem? hg)).2] at this
      simp [Phase.held] at this

/-- The program dies only of a call that would have failed as well had it been the next one in the order in which the
calls took effect. -/
theorem dies_as_alone {s0 : Store} {progs : List (List Call)} (hp : ∀ p ∈ progs, ∀ c ∈ p, NoAssign c) {s : State}
    (h : Reachable s0 progs s) {c : Call} (hd : s.dead = some c) : ∀ x, exec s.store c ≠ .ok x := by
  induction h with
  | start => simp [State.start] at hd
  | step t hr hs ih =>
    have hi := inv_of_reachable hp hr
    unfold stepThread at hs
    split at hs
    · simp at hs
    · next hnd =>
      split at hs
      · simp at hs
      · next th ht =>
        split at hs
        · split at hs
          · simp at hs
          · simp only [Option.some.injEq] at hs
            subst hs
            rw [hnd] at hd; simp at hd
        · split at hs
          · simp at hs
          · simp only [Option.some.injEq] at hs
            subst hs
            rw [hnd] at hd; simp at hd
        · simp only [Option.some.injEq] at hs
          subst hs
          rw [hnd] at hd; simp at hd
        · next c' held snap hph =>
          have hpt := hi.phase _ _ ht
          rw [hph] at hpt
          rw [believe_current hpt.2.1] at hs
          split at hs
          · simp only [Option.some.injEq] at hs
            subst hs
            rw [hnd] at hd; simp at hd
          · next hex =>
            simp only [Option.some.injEq] at hs
            subst hs
            simp only [Option.some.injEq] at hd
            subst hd
            intro x hx
            exact hex x.1 x.2 hx
        · simp only [Option.some.injEq] at hs
          subst hs
          rw [hnd] at hd; simp at hd
        · simp only [Option.some.injEq] at hs
          subst hs
          rw [hnd] at hd; simp at hd

/-- Two threads are never both between reading and writing the same group. -/
theorem exclusive {s0 : Store} {progs : List (List Call)} (hp : ∀ p ∈ progs, ∀ c ∈ p, NoAssign c) {s : State}
    (h : Reachable s0 progs s) {t u : Nat} (hne : t ≠ u) {a b : List Call} {c c' : Call} {x y : List Nat}
    {v w : List (Nat × Group)} (ht : s.threads[t]? = some ⟨a, .loaded c x v⟩)
    (hu : s.threads[u]? = some ⟨b, .loaded c' y w⟩) : ∀ g ∈ uses c, g ∉ uses c' := by
  have hi := inv_of_reachable hp h
  intro g hg hg'
  have h1 := (hi.phase _ _ ht).1
  have h2 := (hi.phase _ _ hu).1
  have n1 : NoAssign c := hi.pend _ _ ht c (by simp [Thread.pending])
  have n2 : NoAssign c' := hi.pend _ _ hu c' (by simp [Thread.pending])
  rw [uses_locks n1, ← h1, List.mem_reverse] at hg
  rw [uses_locks n2, ← h2, List.mem_reverse] at hg'
  have o1 := (hi.own _ _ ht g).1 hg
  have o2 := (hi.own _ _ hu g).1 hg'
  rw [o1] at o2
  simp only [Option.some.injEq] at o2
  exact hne o2

/-- Calls on groups that do not exist are undefined. -/
theorem missing_group (s : Store) (g : Nat) (h : s.groups[g]? = none) (n : String) (t : Ty) (v : Val) (l : Nat) :
    exec s (.add g n t) = .ub ∧ exec s (.has g n) = .ub ∧ exec s (.remove g n) = .ub ∧ exec s (.clone g) = .ub ∧
      exec s (.compare g l) = .ub ∧ exec s (.compare l g) = .ub ∧ exec s (.assignTo g n t v) = .ub ∧
      exec s (.setter g n t v) = .ub ∧ exec s (.assign g l) = .ub ∧ exec s (.assign l g) = .ub := by
  refine ⟨?_, ?_, ?_, ?_, ?_, ?_, ?_, ?_, ?_, ?_⟩ <;> simp [exec, lift, step, h]

example : twoGroups.groups[2]? = none := rfl

/-! ### Deadlocks -/

/-- All comparisons of different groups go upwards in the order `rank`. -/
def Upwards (rank : Nat → Nat) (c : Call) : Prop := ∀ l r, c = .compare l r → l ≠ r → rank l < rank r

theorem after_upwards {rank : Nat → Nat} {c c' : Call} {r : Res} (h : c' ∈ after c r) : Upwards rank c' := by
  intro a b e
  subst e
  unfold after at h
  split at h <;> simp at h

/-- What holds for all calls of the programs, and for all calls that follow from others, holds for all calls. -/
theorem pending_all {s0 : Store} {progs : List (List Call)} {P : Call → Prop}
    (hp : ∀ p ∈ progs, ∀ c ∈ p, P c) (ha : ∀ c r, ∀ c' ∈ after c r, P c') {s : State} (h : Reachable s0 progs s) :
    ∀ (t : Nat) (th : Thread), s.threads[t]? = some th → ∀ c ∈ th.pending, P c := by
  induction h with
  | start =>
    intro t th h c hc
    simp only [State.start, List.getElem?_map, Option.map_eq_some_iff] at h
    obtain ⟨p, h1, rfl⟩ := h
    exact hp p (List.mem_of_getElem? h1) c hc
  | step t hr hs ih =>
    have quiet : ∀ {s : State} {th th' : Thread}, s.threads[t]? = some th → th'.pending = th.pending →
        (∀ (t : Nat) (th : Thread), s.threads[t]? = some th → ∀ c ∈ th.pending, P c) →
        ∀ (u : Nat) (thu : Thread), (s.threads.set t th')[u]? = some thu → ∀ c ∈ thu.pending, P c := by
      intro s th th' ht he ih u thu hu
      rcases getElem?_set_cases hu with ⟨rfl, rfl, -⟩ | ⟨-, hu⟩
      · rw [he]; exact ih _ _ ht
      · exact ih _ _ hu
    unfold stepThread at hs
    split at hs
    · simp at hs
    · split at hs
      · simp at hs
      · next th ht =>
        split at hs
        · next hph =>
          split at hs
          · simp at hs
          · next htd =>
            simp only [Option.some.injEq] at hs
            subst hs
            exact quiet ht (by simp [Thread.pending, hph, htd]) ih
        · next hph =>
          split at hs
          · simp at hs
          · simp only [Option.some.injEq] at hs
            subst hs
            exact quiet ht (by simp [Thread.pending, hph]) ih
        · next hph =>
          simp only [Option.some.injEq] at hs
          subst hs
          exact quiet ht (by simp [Thread.pending, hph]) ih
        · next c held snap hph =>
          split at hs
          · next st r hex =>
            simp only [Option.some.injEq] at hs
            subst hs
            intro u thu hu c' hc'
            rcases getElem?_set_cases hu with ⟨rfl, rfl, -⟩ | ⟨-, hu⟩
            · simp only [Thread.pending, List.mem_append] at hc'
              rcases hc' with h1 | h1
              · exact ha _ _ _ h1
              · exact ih _ _ ht c' (by simp [Thread.pending, hph, h1])
            · exact ih _ _ hu c' hc'
          · simp only [Option.some.injEq] at hs
            subst hs
            exact ih
        · next hph =>
          simp only [Option.some.injEq] at hs
          subst hs
          exact quiet ht (by simp [Thread.pending, hph]) ih
        · next hph =>
          simp only [Option.some.injEq] at hs
          subst hs
          exact quiet ht (by simp [Thread.pending, hph]) ih

theorem stuck_cases {s : State} (hd : s.dead = none) {t : Nat} {th : Thread} (ht : s.threads[t]? = some th)
    (hs : stepThread s t = none) :
    th.finished ∨ ∃ c held g need u, th.phase = .locking c held (g :: need) ∧ s.owner g = some u := by
  unfold stepThread at hs
  rw [hd, ht] at hs
  simp only at hs
  split at hs
  · next hph =>
    split at hs
    · next htd => exact .inl ⟨htd, hph⟩
    · simp at hs
  · next c held g need hph =>
    split at hs
    · next u hu => exact .inr ⟨c, held, g, need, u, hph, hu⟩
    · simp at hs
  · simp at hs
  · split at hs <;> simp at hs
  · simp at hs
  · simp at hs

theorem bounded {α : Type} (f : α → Nat) (l : List α) : ∃ B, ∀ a ∈ l, f a ≤ B := by
  induction l with
  | nil => exact ⟨0, by simp⟩
  | cons a l ih =>
    obtain ⟨B, hB⟩ := ih
    refine ⟨max (f a) B, ?_⟩
    intro b hb
    rcases List.mem_cons.1 hb with rfl | hb
    · exact Nat.le_max_left _ _
    · exact Nat.le_trans (hB b hb) (Nat.le_max_right _ _)

/-- If there is an order of the groups in which all comparisons go upwards, the threads never wait for each other for
ever: as long as the program has not died and some thread is not done, some thread can go on. -/
theorem no_deadlock {s0 : Store} {progs : List (List Call)} (hp : ∀ p ∈ progs, ∀ c ∈ p, NoAssign c)
    (rank : Nat → Nat) (hr : ∀ p ∈ progs, ∀ c ∈ p, Upwards rank c) {s : State} (h : Reachable s0 progs s)
    (hd : s.dead = none) (hf : ∃ th ∈ s.threads, ¬ th.finished) : ∃ t s', stepThread s t = some s' := by
  have hi := inv_of_reachable hp h
  have hup := pending_all hr (fun c r c' hc => after_upwards (rank := rank) hc) h
  cases Classical.em (∃ t s', stepThread s t = some s') with
  | inl h => exact h
  | inr hno =>
    exfalso
    have hnone : ∀ t, stepThread s t = none := by
      intro t
      cases e : stepThread s t with
      | none => rfl
      | some s' => exact absurd ⟨t, s', e⟩ hno
    -- a thread that waits for a group of rank at least `n`
    have key : ∀ n, ∃ (t : Nat) (th : Thread) (c : Call) (held : List Nat) (g : Nat) (need : List Nat) (u : Nat),
        s.threads[t]? = some th ∧ th.phase = .locking c held (g :: need) ∧ s.owner g = some u ∧ n ≤ rank g := by
      intro n
      induction n with
      | zero =>
        obtain ⟨th, hm, hnf⟩ := hf
        obtain ⟨t, ht⟩ := List.mem_iff_getElem?.1 hm
        rcases stuck_cases hd ht (hnone t) with hfin | ⟨c, held, g, need, u, h1, h2⟩
        · exact absurd hfin hnf
        · exact ⟨t, th, c, held, g, need, u, ht, h1, h2, Nat.zero_le _⟩
      | succ n ih =>
        obtain ⟨t, th, c, held, g, need, u, ht, h1, h2, h3⟩ := ih
        have hl := hi.ownLt g u h2
        have hu := List.getElem?_eq_getElem hl
        have hheld := (hi.own u _ hu g).2 h2
        rcases stuck_cases hd hu (hnone u) with hfin | ⟨c', held', g', need', u', h1', h2'⟩
        · rw [hfin.2] at hheld
          simp [Phase.held] at hheld
        · refine ⟨u, _, c', held', g', need', u', hu, h1', h2', ?_⟩
          rw [h1'] at hheld
          simp only [Phase.held] at hheld
          have hph := hi.phase u _ hu
          rw [h1'] at hph
          simp only [PhaseOk] at hph
          have hc' : Upwards rank c' := hup u _ hu c' (by simp [Thread.pending, h1'])
          have hlk : 2 ≤ (locks c').length := by
            rw [← hph]
            simp only [List.length_append, List.length_reverse, List.length_cons]
            have := List.length_pos_of_mem hheld
            omega
          cases c' with
          | compare l r =>
            simp only [locks] at hph hlk
            split at hlk
            · simp at hlk
            · next hlr =>
              rw [if_neg hlr] at hph
              have hlt := hc' l r rfl hlr
              match held', hheld, hph with
              | [x], hheld, hph =>
                simp only [List.reverse_cons, List.reverse_nil, List.nil_append, List.cons_append,
                  List.cons.injEq] at hph
                simp only [List.mem_singleton] at hheld
                rw [hheld, hph.1] at h3
                rw [hph.2.1]
                omega
              | x :: y :: z, hheld, hph =>
                have := congrArg List.length hph
                simp at this
                omega
          | _ => simp [locks] at hlk
    obtain ⟨B, hB⟩ := bounded (fun th : Thread => match th.phase with
      | .locking _ _ (g :: _) => rank g
      | _ => 0) s.threads
    obtain ⟨t, th, c, held, g, need, u, ht, h1, h2, h3⟩ := key (B + 1)
    have := hB th (List.mem_of_getElem? ht)
    simp only [h1] at this
    omega

/-! ### All calls end -/

/-- What a call takes at most, with all that follows from it. -/
def followWeight : Call → Nat
  | .assignTo _ _ _ _ => 4
  | .setter _ _ _ _ => 16
  | _ => 0

def weight (c : Call) : Nat := 2 * (locks c).length + 4 + followWeight c

def phaseWeight : Phase → Nat
  | .idle => 0
  | .locking c held need => 2 * need.length + held.length + 3 + followWeight c
  | .loaded c held _ => held.length + 2 + followWeight c
  | .unlocking held => held.length + 1

def threadWeight (th : Thread) : Nat := (th.todo.map weight).sum + phaseWeight th.phase

/-- How many steps a state is away from the end at most. -/
def stateWeight (s : State) : Nat := (s.threads.map threadWeight).sum + (if s.dead = none then 1 else 0)

theorem after_weight (c : Call) (r : Res) : ((after c r).map weight).sum ≤ followWeight c := by
  unfold after
  split <;> simp [weight, followWeight, locks]

theorem sum_set {l : List Thread} {t : Nat} {th th' : Thread} (ht : l[t]? = some th) :
    ((l.set t th').map threadWeight).sum + threadWeight th = (l.map threadWeight).sum + threadWeight th' := by
  induction l generalizing t with
  | nil => simp at ht
  | cons a l ih =>
    cases t with
    | zero =>
      simp only [List.getElem?_cons_zero, Option.some.injEq] at ht
      subst ht
      simp only [List.set_cons_zero, List.map_cons, List.sum_cons]
      omega
    | succ t =>
      simp only [List.getElem?_cons_succ] at ht
      have := ih ht
      simp only [List.set_cons_succ, List.map_cons, List.sum_cons]
      omega

theorem step_weight {s s' : State} {t : Nat} (h : stepThread s t = some s') : stateWeight s' < stateWeight s := by
  have quiet : ∀ {th th' : Thread} (o : Nat → Option Nat) (st : Store) (lg : List (Nat × Call × Res)),
      s.threads[t]? = some th → threadWeight th' < threadWeight th →
      stateWeight ⟨st, o, s.threads.set t th', lg, s.dead⟩ < stateWeight s := by
    intro th th' o st lg ht hw
    have := sum_set (th' := th') ht
    simp only [stateWeight]
    omega
  unfold stepThread at h
  split at h
  · simp at h
  · next hd =>
    split at h
    · simp at h
    · next th ht =>
      split at h
      · next hph =>
        split at h
        · simp at h
        · next c rest htd =>
          simp only [Option.some.injEq] at h
          subst h
          refine quiet _ _ _ ht ?_
          simp only [threadWeight, hph, htd, phaseWeight, List.map_cons, List.sum_cons, weight, List.length_nil]
          omega
      · next hph =>
        split at h
        · simp at h
        · simp only [Option.some.injEq] at h
          subst h
          refine quiet _ _ _ ht ?_
          simp only [threadWeight, hph, phaseWeight, List.length_cons]
          omega
      · next hph =>
        simp only [Option.some.injEq] at h
        subst h
        refine quiet _ _ _ ht ?_
        simp only [threadWeight, hph, phaseWeight, List.length_nil]
        omega
      · next c held snap hph =>
        split at h
        · next st r hex =>
          simp only [Option.some.injEq] at h
          subst h
          refine quiet _ _ _ ht ?_
          have := after_weight c r
          simp only [threadWeight, hph, phaseWeight, List.map_append, List.sum_append]
          omega
        · simp only [Option.some.injEq] at h
          subst h
          simp [stateWeight, hd]
      · next hph =>
        simp only [Option.some.injEq] at h
        subst h
        refine quiet _ _ _ ht ?_
        simp only [threadWeight, hph, phaseWeight, List.length_cons]
        omega
      · next hph =>
        simp only [Option.some.injEq] at h
        subst h
        refine quiet _ _ _ ht ?_
        simp only [threadWeight, hph, phaseWeight, List.length_nil]
        omega

/-- No order of the steps goes on for ever. -/
theorem all_runs_end (s : State) : ∃ N, ∀ sched s', runSchedule s sched = some s' → sched.length ≤ N := by
  refine ⟨stateWeight s, fun sched => ?_⟩
  induction sched generalizing s with
  | nil => intro s' _; simp
  | cons t ts ih =>
    intro s' h
    simp only [runSchedule] at h
    split at h
    · simp at h
    · next s1 h1 =>
      have := ih s1 s' h
      have := step_weight h1
      simp only [List.length_cons]
      omega

theorem reachable_run {s0 : Store} {progs : List (List Call)} {s s' : State} (h : Reachable s0 progs s)
    {sched : List Nat} (hs : runSchedule s sched = some s') : Reachable s0 progs s' := by
  induction sched generalizing s with
  | nil => simp only [runSchedule, Option.some.injEq] at hs; subst hs; exact h
  | cons t ts ih =>
    simp only [runSchedule] at hs
    split at hs
    · simp at hs
    · next s1 h1 => exact ih (.step t h h1) hs

/-- From every state that is reached the threads get to the end, or the program dies, whatever they did before. -/
theorem ends {s0 : Store} {progs : List (List Call)} (hp : ∀ p ∈ progs, ∀ c ∈ p, NoAssign c) (rank : Nat → Nat)
    (hr : ∀ p ∈ progs, ∀ c ∈ p, Upwards rank c) {s : State} (h : Reachable s0 progs s) :
    ∃ sched s', runSchedule s sched = some s' ∧ (s'.dead ≠ none ∨ ∀ th ∈ s'.threads, th.finished) := by
  suffices ∀ n (s : State), stateWeight s ≤ n → Reachable s0 progs s →
      ∃ sched s', runSchedule s sched = some s' ∧ (s'.dead ≠ none ∨ ∀ th ∈ s'.threads, th.finished) from
    this _ s (Nat.le_refl _) h
  intro n
  induction n with
  | zero =>
    intro s hw h
    refine ⟨[], s, rfl, .inl ?_⟩
    intro hd
    simp [stateWeight, hd] at hw
  | succ n ih =>
    intro s hw h
    cases Classical.em (s.dead = none) with
    | inr hd => exact ⟨[], s, rfl, .inl hd⟩
    | inl hd =>
      cases Classical.em (∃ th ∈ s.threads, ¬ th.finished) with
      | inr hf =>
        refine ⟨[], s, rfl, .inr fun th hth => ?_⟩
        cases Classical.em th.finished with
        | inl h => exact h
        | inr h => exact absurd ⟨th, hth, h⟩ hf
      | inl hf =>
        obtain ⟨t, s1, h1⟩ := no_deadlock hp rank hr h hd hf
        obtain ⟨sched, s', h2, h3⟩ := ih s1 (by have := step_weight h1; omega) (.step t h h1)
        exact ⟨t :: sched, s', by simp [runSchedule, h1, h2], h3⟩

/-! ### What goes wrong -/

theorem reachable_of_run {s0 : Store} {progs : List (List Call)} {s : State} {sched : List Nat}
    (hs : runSchedule (State.start s0 progs) sched = some s) : Reachable s0 progs s :=
  reachable_run .start hs

/-- `a == b` in one thread and `b == a` in another can wait for each other for ever: each takes the mutex of its left
side first. -/
theorem deadlock_refuted : ∃ s, Reachable twoGroups [[.compare 0 1], [.compare 1 0]] s ∧ s.dead = none ∧
    (∀ t, stepThread s t = none) ∧ ∀ th ∈ s.threads, ¬ th.finished := by
  refine ⟨_, reachable_of_run (sched := [0, 1, 0, 1]) rfl, rfl, ?_, ?_⟩
  · intro t
    match t with
    | 0 => rfl
    | 1 => rfl
    | t + 2 => rfl
  · intro th hth
    simp [State.start] at hth
    rcases hth with rfl | rfl <;> simp [Thread.finished]

/-- Two threads that set the same channel of a frame for the first time can abort the program: both see that there is no
channel, and the second to add it fails. -/
theorem setter_refuted : ∃ s, Reachable twoGroups
    [[.setter 0 "A" 7 (.matrix 1 1 [1])], [.setter 0 "A" 7 (.matrix 1 1 [2])]] s ∧ s.dead = some (.add 0 "A" 7) ∧
    exec s.store (.add 0 "A" 7) = .abort :=
  ⟨_, reachable_of_run (sched := [0, 0, 0, 0, 0, 0, 1, 1, 1, 1, 1, 1, 0, 0, 0, 0, 0, 0, 1, 1, 1, 1]) rfl, rfl, by decide⟩

/-- A call that reads the object `i` by way of the groups it has read. -/
def Reads (c : Call) (snap : List (Nat × Group)) (i : Nat) : Prop :=
  (∃ l r, c = .compare l r ∨ c = .clone l) ∧ ∃ e ∈ snap, ∃ n, (n, i) ∈ e.2

/-- Setting a channel writes to the object without the mutex, so a thread can be about to write to an object that another
thread, which has the mutex, is about to read. -/
theorem write_race_refuted : ∃ s, Reachable oneChannel
    [[.assignTo 0 "A" 7 (.matrix 1 1 [1])], [.clone 0]] s ∧ ∃ a b c held snap v,
    s.threads[0]? = some ⟨a, .loaded (.poke 0 v) [] []⟩ ∧ s.threads[1]? = some ⟨b, .loaded c held snap⟩ ∧
    Reads c snap 0 := by
  refine ⟨_, reachable_of_run (sched := [0, 0, 0, 0, 0, 0, 0, 0, 1, 1, 1]) rfl, [], [], .clone 0, [0], [(0, [("A", 0)])],
    .matrix 1 1 [1], rfl, rfl, ⟨0, 0, .inr rfl⟩, (0, [("A", 0)]), by simp, "A", by simp⟩

/-- A channel can be removed while another thread is about to write to it: the object is then in no group, and the
reference dangles. -/
theorem dangling_refuted : ∃ s, Reachable oneChannel
    [[.assignTo 0 "A" 7 (.matrix 1 1 [1])], [.remove 0 "A"]] s ∧ ∃ a v,
    s.threads[0]? = some ⟨a, .loaded (.poke 0 v) [] []⟩ ∧ ∀ m ∈ s.store.groups, ∀ n, (n, 0) ∉ m := by
  refine ⟨_, reachable_of_run (sched := [0, 0, 0, 0, 0, 0, 0, 0, 1, 1, 1, 1]) rfl, [], .matrix 1 1 [1], rfl, ?_⟩
  show ∀ m ∈ [[], []], ∀ n, (n, 0) ∉ m
  simp

theorem sequential_two {s s' : Store} {a b : Call × Res} (h : Sequential s [a, b] s') :
    ∃ s1, exec s a.1 = .ok (s1, a.2) ∧ exec s1 b.1 = .ok (s', b.2) := by
  generalize hl : [a, b] = l at h
  cases h with
  | nil => simp at hl
  | @snoc s1 _ l' c r h1 h2 =>
    have e1 : [a] = l' ∧ b = (c, r) := by
      match l', hl with
      | [x], hl => simpa using hl
      | [], hl => simp at hl
      | x :: y :: z, hl => have := congrArg List.length hl; simp at this
    obtain ⟨rfl, rfl⟩ := e1
    generalize hl2 : [a] = l2 at h1
    cases h1 with
    | nil => simp at hl2
    | @snoc s2 _ l'' c' r' h3 h4 =>
      have e2 : [] = l'' ∧ a = (c', r') := by
        match l'', hl2 with
        | [], hl => simpa using hl
        | x :: y, hl => have := congrArg List.length hl; simp at this
      obtain ⟨rfl, rfl⟩ := e2
      generalize hl3 : [] = l3 at h3
      cases h3 with
      | nil => exact ⟨_, h4, h2⟩
      | snoc _ _ => simp at hl3

/-- `operator=` takes no mutex: with it two threads can be between reading and writing the same group, and what comes out
is what neither order of the two calls gives. -/
theorem assign_refuted : ∃ s, Reachable oneChannel [[.assign 1 0], [.add 1 "B" 7]] s ∧
    (∃ snap snap', s.threads[0]? = some ⟨[], .loaded (.assign 1 0) [] snap⟩ ∧
      s.threads[1]? = some ⟨[], .loaded (.add 1 "B" 7) [1] snap'⟩) ∧
    ∃ sched s' a b, runSchedule s sched = some s' ∧ s'.dead = none ∧ s'.log = [(0, a), (1, b)] ∧
      ¬ Sequential oneChannel [a, b] s'.store ∧ ¬ Sequential oneChannel [b, a] s'.store := by
  refine ⟨_, reachable_of_run (sched := [1, 1, 1, 0, 0]) rfl, ⟨_, _, rfl, rfl⟩, [0, 1], _, (.assign 1 0, .out .unit),
    (.add 1 "B" 7, .out (.val defaultVal)), rfl, rfl, rfl, ?_, ?_⟩
  · intro h
    obtain ⟨s1, h1, h2⟩ := sequential_two h
    have e1 : exec oneChannel (.assign 1 0) =
        .ok (⟨[⟨7, .matrix 1 1 [3]⟩], [], [[("A", 0)], [("A", 0)]]⟩, .out .unit) := by decide
    rw [e1] at h1
    simp only [Outcome.ok.injEq, Prod.mk.injEq, and_true] at h1
    subst h1
    revert h2
    decide
  · intro h
    obtain ⟨s1, h1, h2⟩ := sequential_two h
    have e1 : exec oneChannel (.add 1 "B" 7) =
        .ok (⟨[⟨7, .matrix 1 1 [3]⟩, ⟨7, defaultVal⟩], [], [[("A", 0)], [("B", 1)]]⟩, .out (.val defaultVal)) := by
      decide
    rw [e1] at h1
    simp only [Outcome.ok.injEq, Prod.mk.injEq, and_true] at h1
    subst h1
    revert h2
    decide

/-! ### Threads that set different channels -/

/-- The value of channel `n` of group `g`. -/
def valueAt (s : Store) (g : Nat) (n : String) : Option Val :=
  match s.groups[g]? with
  | none => none
  | some m =>
    match m.lookup n with
    | none => none
    | some i => (s.objs[i]?).map Obj.val

/-- The value a program sets channel `n` of group `g` to last. -/
def lastSet (p : List Call) (g : Nat) (n : String) : Option Val :=
  p.foldl (fun acc c => match c with
    | .setter g' n' _ v => if g' = g ∧ n' = n then some v else acc
    | _ => acc) none

/-- Programs that set channels, each with the type of its name, and ask for channels, of groups that exist. -/
def SetsOnly (typ : String → Ty) (k : Nat) (c : Call) : Prop :=
  (∃ g n v, c = .setter g n (typ n) v ∧ g < k) ∨ ∃ g n, c = .has g n ∧ g < k

/-- Thread `t` sets channel `n` of group `g`. -/
def SetBy (progs : List (List Call)) (t g : Nat) (n : String) : Prop :=
  ∃ p, progs[t]? = some p ∧ ∃ ty v, Call.setter g n ty v ∈ p

/-- Each channel has the type of its name. -/
def Typed (typ : String → Ty) (s : Store) : Prop :=
  ∀ (g : Nat) (m : Group), s.groups[g]? = some m → ∀ n i, m.lookup n = some i → ∃ o, s.objs[i]? = some o ∧ o.ty = typ n

/-- No two channels are the same object. -/
def NoSharing (s : Store) : Prop :=
  ∀ (g g' : Nat) (m m' : Group), s.groups[g]? = some m → s.groups[g']? = some m' → ∀ n n' i, m.lookup n = some i →
    m'.lookup n' = some i → g = g' ∧ n = n'

/-- What is left of a setter, and which channel and value it is about. -/
inductive Rest (typ : String → Ty) (progs : List (List Call)) (t : Nat) (s : Store) :
    Option (Nat × String × Val) → List Call → Prop where
  | none : Rest typ progs t s none []
  | add {g : Nat} {n : String} {v : Val} {m : Group} : SetBy progs t g n → s.groups[g]? = some m → m.lookup n = none →
      Rest typ progs t s (some (g, n, v)) [.add g n (typ n), .assignTo g n (typ n) v]
  | assign {g : Nat} {n : String} {v : Val} {m : Group} {i : Nat} : SetBy progs t g n → s.groups[g]? = some m →
      m.lookup n = some i → Rest typ progs t s (some (g, n, v)) [.assignTo g n (typ n) v]
  | poke {g : Nat} {n : String} {v : Val} {m : Group} {i : Nat} : SetBy progs t g n → s.groups[g]? = some m →
      m.lookup n = some i → Rest typ progs t s (some (g, n, v)) [.poke i v]

/-- How far a thread is: the part `done` of its program has been done but for `pre`. -/
def Progress (typ : String → Ty) (progs : List (List Call)) (s : Store) (t : Nat) (pending : List Call) : Prop :=
  ∃ did rest pre cur, progs[t]? = some (did ++ rest) ∧ pending = pre ++ rest ∧ Rest typ progs t s cur pre ∧
    ∀ g n v, lastSet did g n = some v → cur = some (g, n, v) ∨ ((∀ v', cur ≠ some (g, n, v')) ∧ valueAt s g n = some v)

structure SetInv (typ : String → Ty) (s0 : Store) (progs : List (List Call)) (s : State) : Prop where
  alive : s.dead = none
  typed : Typed typ s.store
  unshared : NoSharing s.store
  groups : s.store.groups.length = s0.groups.length
  prog : ∀ (t : Nat) (th : Thread), s.threads[t]? = some th → Progress typ progs s.store t th.pending

theorem lastSet_snoc (p : List Call) (c : Call) (g : Nat) (n : String) :
    lastSet (p ++ [c]) g n = match c with
      | .setter g' n' _ v => if g' = g ∧ n' = n then some v else lastSet p g n
      | _ => lastSet p g n := by
  simp only [lastSet, List.foldl_append, List.foldl_cons, List.foldl_nil]

theorem lastSet_mem {p : List Call} {g : Nat} {n : String} {v : Val} (h : lastSet p g n = some v) :
    ∃ ty v, Call.setter g n ty v ∈ p := by
  have : ∀ (l : List Call) (acc : Option Val), l.foldl (fun acc c => match c with
      | .setter g' n' _ v => if g' = g ∧ n' = n then some v else acc
      | _ => acc) acc = some v → acc = some v ∨ ∃ ty v, Call.setter g n ty v ∈ l := by
    intro l
    induction l with
    | nil => intro acc h; exact .inl h
    | cons c l ih =>
      intro acc h
      rw [List.foldl_cons] at h
      rcases ih _ h with h1 | ⟨ty, v2, hm⟩
      · split at h1
        · next g' n' ty v' =>
          split at h1
          · next e => exact .inr ⟨ty, v', by rw [← e.1, ← e.2]; simp⟩
          · exact .inl h1
        · exact .inl h1
      · exact .inr ⟨ty, v2, by simp [hm]⟩
  rcases this p none h with h | h
  · simp at h
  · exact h

/-- `Progress` needs only the groups to keep their channels, and the values of the channels of the thread to stay. -/
theorem Progress.mono {typ : String → Ty} {progs : List (List Call)} {s s' : Store} {t : Nat} {pending : List Call}
    (h : Progress typ progs s t pending)
    (hl : ∀ g n, SetBy progs t g n → ∀ (m : Group), s.groups[g]? = some m →
      ∃ m' : Group, s'.groups[g]? = some m' ∧ m'.lookup n = m.lookup n)
    (hv : ∀ g n, SetBy progs t g n → valueAt s' g n = valueAt s g n) : Progress typ progs s' t pending := by
  obtain ⟨did, rest, pre, cur, h1, h2, h3, h4⟩ := h
  refine ⟨did, rest, pre, cur, h1, h2, ?_, ?_⟩
  · cases h3 with
    | none => exact .none
    | add a b c => obtain ⟨m', x, y⟩ := hl _ _ a _ b; exact .add a x (by rw [y]; exact c)
    | assign a b c => obtain ⟨m', x, y⟩ := hl _ _ a _ b; exact .assign a x (by rw [y]; exact c)
    | poke a b c => obtain ⟨m', x, y⟩ := hl _ _ a _ b; exact .poke a x (by rw [y]; exact c)
  · intro g n v hlast
    have hset : SetBy progs t g n := by
      refine ⟨_, h1, ?_⟩
      obtain ⟨ty, v2, hm⟩ := lastSet_mem hlast
      exact ⟨ty, v2, by simp [hm]⟩
    rcases h4 g n v hlast with h | ⟨ha, hb⟩
    · exact .inl h
    · exact .inr ⟨ha, by rw [hv g n hset]; exact hb⟩

theorem lookup_cons_ne {n n0 : String} {i : Nat} {m : Group} (h : n ≠ n0) :
    List.lookup n ((n0, i) :: m) = List.lookup n m := by
  rw [List.lookup_cons]
  have : (n == n0) = false := by simpa using h
  rw [this]

theorem lookup_cons_eq {n : String} {i : Nat} {m : Group} : List.lookup n ((n, i) :: m) = some i := by
  rw [List.lookup_cons]; simp

/-- The store after `add`. -/
def added (s : Store) (g : Nat) (m : Group) (n : String) (t : Ty) : Store :=
  { s with objs := s.objs ++ [⟨t, defaultVal⟩], groups := s.groups.set g ((n, s.objs.length) :: m) }

theorem added_lookup {s : Store} {g : Nat} {m : Group} {n : String} {t : Ty} (hg : s.groups[g]? = some m) {g' : Nat}
    {m' : Group} (h : (added s g m n t).groups[g']? = some m') (n' : String) :
    (g' = g ∧ n' = n ∧ m'.lookup n' = some s.objs.length) ∨
      (¬ (g' = g ∧ n' = n) ∧ ∃ m'' : Group, s.groups[g']? = some m'' ∧ m'.lookup n' = m''.lookup n') := by
  rcases getElem?_set_cases h with ⟨rfl, rfl, -⟩ | ⟨hne, h⟩
  · by_cases hn : n' = n
    · subst hn; exact .inl ⟨rfl, rfl, lookup_cons_eq⟩
    · exact .inr ⟨fun e => hn e.2, m, hg, lookup_cons_ne hn⟩
  · exact .inr ⟨fun e => hne e.1, m', h, rfl⟩

theorem added_typed {typ : String → Ty} {s : Store} {g : Nat} {m : Group} {n : String} (hg : s.groups[g]? = some m)
    (h : Typed typ s) : Typed typ (added s g m n (typ n)) := by
  intro g' m' hm' n' i hi
  rcases added_lookup hg hm' n' with ⟨-, rfl, e⟩ | ⟨-, m'', h1, e⟩
  · rw [e, Option.some.injEq] at hi
    subst hi
    exact ⟨⟨typ n', defaultVal⟩, by simp [added], rfl⟩
  · rw [e] at hi
    obtain ⟨o, ho, hty⟩ := h g' m'' h1 n' i hi
    refine ⟨o, ?_, hty⟩
    simp only [added]
    rw [List.getElem?_append_left (List.getElem?_eq_some_iff.1 ho).1]
    exact ho

theorem typed_lt {typ : String → Ty} {s : Store} (h : Typed typ s) {g : Nat} {m : Group} (hm : s.groups[g]? = some m)
    {n : String} {i : Nat} (hi : m.lookup n = some i) : i < s.objs.length := by
  obtain ⟨o, ho, -⟩ := h g m hm n i hi
  exact (List.getElem?_eq_some_iff.1 ho).1

theorem added_unshared {typ : String → Ty} {s : Store} {g : Nat} {m : Group} {n : String} (hg : s.groups[g]? = some m)
    (ht : Typed typ s) (h : NoSharing s) (t : Ty) : NoSharing (added s g m n t) := by
  intro g1 g2 m1 m2 h1 h2 n1 n2 i hi1 hi2
  rcases added_lookup hg h1 n1 with ⟨rfl, rfl, e1⟩ | ⟨-, m1', h1', e1⟩ <;>
    rcases added_lookup hg h2 n2 with ⟨rfl, rfl, e2⟩ | ⟨-, m2', h2', e2⟩
  · exact ⟨rfl, rfl⟩
  · rw [e1, Option.some.injEq] at hi1
    rw [e2] at hi2
    have := typed_lt ht h2' hi2
    omega
  · rw [e2, Option.some.injEq] at hi2
    rw [e1] at hi1
    have := typed_lt ht h1' hi1
    omega
  · rw [e1] at hi1
    rw [e2] at hi2
    exact h g1 g2 m1' m2' h1' h2' n1 n2 i hi1 hi2

theorem added_value {typ : String → Ty} {s : Store} {g : Nat} {m : Group} {n : String} (hg : s.groups[g]? = some m)
    (ht : Typed typ s) (t : Ty) {g' : Nat} {n' : String} (hne : ¬ (g' = g ∧ n' = n)) :
    valueAt (added s g m n t) g' n' = valueAt s g' n' := by
  have hkeep : ∀ (m' m'' : Group), s.groups[g']? = some m'' → m'.lookup n' = m''.lookup n' →
      (match m'.lookup n' with
        | none => none
        | some i => ((added s g m n t).objs[i]?).map Obj.val) =
      (match m''.lookup n' with
        | none => none
        | some i => (s.objs[i]?).map Obj.val) := by
    intro m' m'' h1 e
    rw [e]
    cases hi : m''.lookup n' with
    | none => rfl
    | some i =>
      simp only [added]
      rw [List.getElem?_append_left (typed_lt ht h1 hi)]
  unfold valueAt
  cases hm' : (added s g m n t).groups[g']? with
  | none =>
    simp only [added] at hm'
    have : s.groups[g']? = none := by
      rw [List.getElem?_eq_none_iff] at hm' ⊢
      simpa using hm'
    rw [this]
  | some m' =>
    rcases added_lookup hg hm' n' with ⟨h1, h2, -⟩ | ⟨-, m'', h1, e⟩
    · exact absurd ⟨h1, h2⟩ hne
    · rw [h1]
      exact hkeep m' m'' h1 e

/-- The store after the assignment to object `i`. -/
def poked (s : Store) (i : Nat) (o : Obj) (v : Val) : Store := { s with objs := s.objs.set i ⟨o.ty, v⟩ }

theorem poked_typed {typ : String → Ty} {s : Store} {i : Nat} {o : Obj} (ho : s.objs[i]? = some o) (v : Val)
    (h : Typed typ s) : Typed typ (poked s i o v) := by
  intro g m hm n j hj
  obtain ⟨o', ho', hty⟩ := h g m hm n j hj
  simp only [poked]
  by_cases e : j = i
  · subst e
    rw [ho] at ho'
    simp only [Option.some.injEq] at ho'
    subst ho'
    exact ⟨⟨o.ty, v⟩, by rw [List.getElem?_set]; simp [(List.getElem?_eq_some_iff.1 ho).1], hty⟩
  · exact ⟨o', by rw [List.getElem?_set_ne (fun x => e x.symm)]; exact ho', hty⟩

theorem poked_value {s : Store} (h : NoSharing s) {g : Nat} {m : Group} {n : String} {i : Nat} {o : Obj} (v : Val)
    (hm : s.groups[g]? = some m) (hi : m.lookup n = some i) {g' : Nat} {n' : String} (hne : ¬ (g' = g ∧ n' = n)) :
    valueAt (poked s i o v) g' n' = valueAt s g' n' := by
  unfold valueAt
  simp only [poked]
  cases hm' : s.groups[g']? with
  | none => rfl
  | some m' =>
    simp only
    cases hj : m'.lookup n' with
    | none => rfl
    | some j =>
      simp only
      rw [List.getElem?_set_ne]
      intro e
      subst e
      exact hne (h g' g m' m hm' hm n' n i hj hi)

theorem poked_self {s : Store} {g : Nat} {m : Group} {n : String} {i : Nat} {o : Obj} (v : Val)
    (hm : s.groups[g]? = some m) (hi : m.lookup n = some i) (ho : s.objs[i]? = some o) :
    valueAt (poked s i o v) g n = some v := by
  unfold valueAt
  simp only [poked, hm, hi]
  rw [List.getElem?_set]
  simp [(List.getElem?_eq_some_iff.1 ho).1]

/-- What the next call of a thread does: it succeeds, the thread goes on, and it does not disturb the others. -/
theorem Progress.exec {typ : String → Ty} {s0 s : Store} {progs : List (List Call)}
    (hp : ∀ p ∈ progs, ∀ c ∈ p, SetsOnly typ s0.groups.length c)
    (h1 : ∀ t u g n, SetBy progs t g n → SetBy progs u g n → t = u) (hty : Typed typ s) (hns : NoSharing s)
    (hlen : s.groups.length = s0.groups.length) {t : Nat} {c : Call} {todo : List Call}
    (h : Progress typ progs s t (c :: todo)) :
    ∃ s' r, exec s c = .ok (s', r) ∧ Typed typ s' ∧ NoSharing s' ∧ s'.groups.length = s0.groups.length ∧
      Progress typ progs s' t (after c r ++ todo) ∧
      ∀ u q, u ≠ t → Progress typ progs s u q → Progress typ progs s' u q := by
  obtain ⟨did, rest, pre, cur, a1, a2, a3, a4⟩ := h
  cases a3 with
  | none =>
    simp only [List.nil_append] at a2
    subst a2
    have hmem : c ∈ did ++ c :: todo := by simp
    have hdid : did ++ c :: todo = (did ++ [c]) ++ todo := by simp
    rcases hp _ (List.mem_of_getElem? a1) c hmem with ⟨g, n, v, rfl, hg⟩ | ⟨g, n, rfl, hg⟩
    · have hset : SetBy progs t g n := ⟨_, a1, _, _, hmem⟩
      rw [hdid] at a1
      have hg' := List.getElem?_eq_getElem (show g < s.groups.length by omega)
      generalize hm : s.groups[g] = m at hg'
      have hlast : ∀ g' n' v', lastSet (did ++ [.setter g n (typ n) v]) g' n' = some v' →
          (some (g, n, v) : Option (Nat × String × Val)) = some (g', n', v') ∨
            ((∀ v'', (some (g, n, v) : Option (Nat × String × Val)) ≠ some (g', n', v'')) ∧
              valueAt s g' n' = some v') := by
        intro g' n' v' hl
        rw [lastSet_snoc] at hl
        simp only at hl
        split at hl
        · next e =>
          simp only [Option.some.injEq] at hl
          obtain ⟨rfl, rfl⟩ := e
          subst hl
          exact .inl rfl
        · next e =>
          rcases a4 g' n' v' hl with hx | ⟨-, hx⟩
          · simp at hx
          · refine .inr ⟨?_, hx⟩
            intro v'' he
            simp only [Option.some.injEq, Prod.mk.injEq] at he
            exact e ⟨he.1, he.2.1⟩
      cases hlk : m.lookup n with
      | none =>
        refine ⟨s, .out (.bool false), ?_, hty, hns, hlen, ?_, fun u q _ h => h⟩
        · simp [Concurrent.exec, lift, Channels.step, Outcome.bind, hg', hlk]
        · exact ⟨_, todo, _, some (g, n, v), a1, rfl, .add hset hg' hlk, hlast⟩
      | some i =>
        refine ⟨s, .out (.bool true), ?_, hty, hns, hlen, ?_, fun u q _ h => h⟩
        · simp [Concurrent.exec, lift, Channels.step, Outcome.bind, hg', hlk]
        · exact ⟨_, todo, _, some (g, n, v), a1, rfl, .assign hset hg' hlk, hlast⟩
    · rw [hdid] at a1
      have hg' := List.getElem?_eq_getElem (show g < s.groups.length by omega)
      generalize hm : s.groups[g] = m at hg'
      refine ⟨s, .out (.bool (m.lookup n).isSome), ?_, hty, hns, hlen, ?_, fun u q _ h => h⟩
      · simp [Concurrent.exec, lift, Channels.step, Outcome.bind, hg']
      · refine ⟨_, todo, [], none, a1, by simp [after], .none, ?_⟩
        intro g' n' v' hl
        rw [lastSet_snoc] at hl
        exact a4 g' n' v' hl
  | @add g n v m b1 b2 b3 =>
    simp only [List.cons_append, List.nil_append, List.cons.injEq] at a2
    obtain ⟨rfl, rfl⟩ := a2
    refine ⟨added s g m n (typ n), .out (.val defaultVal), ?_, added_typed b2 hty, added_unshared b2 hty hns _, ?_, ?_, ?_⟩
    · simp [Concurrent.exec, lift, Channels.step, Outcome.bind, b2, b3, added]
    · simpa [added] using hlen
    · have hg : (added s g m n (typ n)).groups[g]? = some ((n, s.objs.length) :: m) := by
        simp only [added]
        rw [List.getElem?_set]
        simp [(List.getElem?_eq_some_iff.1 b2).1]
      refine ⟨did, rest, _, some (g, n, v), a1, by simp [after], .assign b1 hg lookup_cons_eq, ?_⟩
      intro g' n' v' hl
      rcases a4 g' n' v' hl with hx | ⟨hx, hy⟩
      · exact .inl hx
      · refine .inr ⟨hx, ?_⟩
        rw [added_value b2 hty]
        · exact hy
        · rintro ⟨rfl, rfl⟩; exact hx v rfl
    · intro u q hu hq
      have hne : ∀ g' n', SetBy progs u g' n' → ¬ (g' = g ∧ n' = n) := by
        rintro g' n' hs ⟨rfl, rfl⟩
        exact hu (h1 _ _ _ _ hs b1)
      refine hq.mono ?_ fun g' n' hs => added_value b2 hty _ (hne g' n' hs)
      intro g' n' hs m' hm'
      have hlt : g' < (added s g m n (typ n)).groups.length := by
        simpa [added] using (List.getElem?_eq_some_iff.1 hm').1
      have hget := List.getElem?_eq_getElem hlt
      refine ⟨_, hget, ?_⟩
      rcases added_lookup b2 hget n' with ⟨e1, e2, -⟩ | ⟨-, m'', e1, e2⟩
      · exact absurd ⟨e1, e2⟩ (hne g' n' hs)
      · rw [hm'] at e1
        simp only [Option.some.injEq] at e1
        rw [e2, e1]
  | @assign g n v m i b1 b2 b3 =>
    simp only [List.cons_append, List.nil_append, List.cons.injEq] at a2
    obtain ⟨rfl, rfl⟩ := a2
    obtain ⟨o, ho, hoty⟩ := hty g m b2 n i b3
    refine ⟨s, .obj i, ?_, hty, hns, hlen, ?_, fun u q _ h => h⟩
    · simp [Concurrent.exec, Outcome.bind, b2, resolve, b3, ho, hoty]
    · exact ⟨did, todo, _, some (g, n, v), a1, rfl, .poke b1 b2 b3, a4⟩
  | @poke g n v m i b1 b2 b3 =>
    simp only [List.cons_append, List.nil_append, List.cons.injEq] at a2
    obtain ⟨rfl, rfl⟩ := a2
    obtain ⟨o, ho, -⟩ := hty g m b2 n i b3
    refine ⟨poked s i o v, .out .unit, ?_, poked_typed ho v hty, hns, hlen, ?_, ?_⟩
    · simp [Concurrent.exec, ho, poked]
    · refine ⟨did, todo, [], none, a1, by simp [after], .none, ?_⟩
      intro g' n' v' hl
      refine .inr ⟨by simp, ?_⟩
      rcases a4 g' n' v' hl with hx | ⟨hx, hy⟩
      · simp only [Option.some.injEq, Prod.mk.injEq] at hx
        obtain ⟨rfl, rfl, rfl⟩ := hx
        exact poked_self v b2 b3 ho
      · rw [poked_value hns v b2 b3]
        · exact hy
        · rintro ⟨rfl, rfl⟩; exact hx v rfl
    · intro u q hu hq
      refine hq.mono (fun g' n' _ m' hm' => ⟨m', hm', rfl⟩) fun g' n' hs => poked_value hns v b2 b3 ?_
      rintro ⟨rfl, rfl⟩
      exact hu (h1 _ _ _ _ hs b1)

theorem setsOnly_noAssign {typ : String → Ty} {k : Nat} {c : Call} (h : SetsOnly typ k c) : NoAssign c := by
  rintro d g rfl
  rcases h with ⟨_, _, _, h, -⟩ | ⟨_, _, h, -⟩ <;> simp at h

theorem setInv_of_reachable {typ : String → Ty} {s0 : Store} {progs : List (List Call)}
    (hp : ∀ p ∈ progs, ∀ c ∈ p, SetsOnly typ s0.groups.length c)
    (h1 : ∀ t u g n, SetBy progs t g n → SetBy progs u g n → t = u) (hty : Typed typ s0) (hns : NoSharing s0)
    {s : State} (h : Reachable s0 progs s) : SetInv typ s0 progs s := by
  induction h with
  | start =>
    refine ⟨rfl, hty, hns, rfl, ?_⟩
    intro t th h
    simp only [State.start, List.getElem?_map, Option.map_eq_some_iff] at h
    obtain ⟨p, h2, rfl⟩ := h
    exact ⟨[], p, [], none, h2, rfl, .none, by simp [lastSet]⟩
  | @step s s' t hr hs ih =>
    have hi := inv_of_reachable (fun p hp' c hc => setsOnly_noAssign (hp p hp' c hc)) hr
    have quiet : ∀ {th th' : Thread} (o : Nat → Option Nat), s.threads[t]? = some th → th'.pending = th.pending →
        SetInv typ s0 progs { s with owner := o, threads := s.threads.set t th' } := by
      intro th th' o ht he
      refine ⟨ih.alive, ih.typed, ih.unshared, ih.groups, ?_⟩
      intro u thu hu
      rcases getElem?_set_cases hu with ⟨rfl, rfl, -⟩ | ⟨-, hu⟩
      · rw [he]; exact ih.prog _ _ ht
      · exact ih.prog _ _ hu
    unfold stepThread at hs
    split at hs
    · simp at hs
    · split at hs
      · simp at hs
      · next th ht =>
        split at hs
        · next hph =>
          split at hs
          · simp at hs
          · next htd =>
            simp only [Option.some.injEq] at hs
            subst hs
            exact quiet _ ht (by simp [Thread.pending, hph, htd])
        · next hph =>
          split at hs
          · simp at hs
          · simp only [Option.some.injEq] at hs
            subst hs
            exact quiet _ ht (by simp [Thread.pending, hph])
        · next hph =>
          simp only [Option.some.injEq] at hs
          subst hs
          exact quiet _ ht (by simp [Thread.pending, hph])
        · next c held snap hph =>
          have hpt := hi.phase _ _ ht
          rw [hph] at hpt
          rw [believe_current hpt.2.1] at hs
          have hpr := ih.prog _ _ ht
          rw [show th.pending = c :: th.todo by simp [Thread.pending, hph]] at hpr
          obtain ⟨st, r, e1, e2, e3, e4, e5, e6⟩ := hpr.exec hp h1 ih.typed ih.unshared ih.groups
          rw [e1] at hs
          simp only [Option.some.injEq] at hs
          subst hs
          refine ⟨ih.alive, e2, e3, e4, ?_⟩
          intro u thu hu
          rcases getElem?_set_cases hu with ⟨rfl, rfl, -⟩ | ⟨hne, hu⟩
          · exact e5
          · exact e6 u _ hne (ih.prog _ _ hu)
        · next hph =>
          simp only [Option.some.injEq] at hs
          subst hs
          exact quiet _ ht (by simp [Thread.pending, hph])
        · next hph =>
          simp only [Option.some.injEq] at hs
          subst hs
          exact quiet _ ht (by simp [Thread.pending, hph])

/-- Threads that set channels of the same frames, but no two of them the same channel, do not disturb each other: the
program never dies, it can always go on to the end, and in the end each channel has the value that its thread set last. -/
theorem setters_of_different_channels {typ : String → Ty} {s0 : Store} {progs : List (List Call)}
    (hp : ∀ p ∈ progs, ∀ c ∈ p, SetsOnly typ s0.groups.length c)
    (h1 : ∀ t u g n, SetBy progs t g n → SetBy progs u g n → t = u) (hty : Typed typ s0) (hns : NoSharing s0)
    {s : State} (h : Reachable s0 progs s) :
    s.dead = none ∧ ((∃ th ∈ s.threads, ¬ th.finished) → ∃ t s', stepThread s t = some s') ∧
      ((∀ th ∈ s.threads, th.finished) → ∀ (t : Nat) (p : List Call), progs[t]? = some p → ∀ g n v,
        lastSet p g n = some v → valueAt s.store g n = some v) := by
  have hsi := setInv_of_reachable hp h1 hty hns h
  have hna : ∀ p ∈ progs, ∀ c ∈ p, NoAssign c := fun p hp' c hc => setsOnly_noAssign (hp p hp' c hc)
  have hi := inv_of_reachable hna h
  refine ⟨hsi.alive, ?_, ?_⟩
  · refine no_deadlock hna id ?_ h hsi.alive
    rintro p hp' c hc l r rfl
    rcases hp p hp' _ hc with ⟨_, _, _, h, -⟩ | ⟨_, _, h, -⟩ <;> simp at h
  · intro hf t p ht g n v hl
    have hlt : t < s.threads.length := by rw [hi.len]; exact (List.getElem?_eq_some_iff.1 ht).1
    have hg := List.getElem?_eq_getElem hlt
    obtain ⟨did, rest, pre, cur, a1, a2, a3, a4⟩ := hsi.prog t _ hg
    obtain ⟨e1, e2⟩ := hf _ (List.mem_of_getElem? hg)
    have hpend : s.threads[t].pending = [] := by simp [Thread.pending, e1, e2]
    rw [hpend] at a2
    have h3 : pre = [] ∧ rest = [] := by simpa using a2.symm
    obtain ⟨rfl, rfl⟩ := h3
    rw [ht] at a1
    simp only [List.append_nil, Option.some.injEq] at a1
    subst a1
    cases a3
    rcases a4 g n v hl with hx | ⟨-, hx⟩
    · simp at hx
    · exact hx

/-! ### Examples -/

/-- Two threads that set two channels of a frame; the first sets its channel twice. -/
def exampleProgs : List (List Call) :=
  [[.setter 0 "A" 7 (.matrix 1 1 [1]), .setter 0 "A" 7 (.matrix 1 1 [4])],
   [.has 0 "A", .setter 0 "B" 7 (.matrix 1 1 [2])]]

example : ∀ p ∈ exampleProgs, ∀ c ∈ p, NoAssign c := by
  intro p hp c hc d g e
  subst e
  simp only [exampleProgs, List.mem_cons, List.not_mem_nil, or_false] at hp
  rcases hp with rfl | rfl <;> simp at hc

example : ∀ p ∈ exampleProgs, ∀ c ∈ p, SetsOnly (fun _ => 7) twoGroups.groups.length c := by
  intro p hp c hc
  simp only [exampleProgs, List.mem_cons, List.not_mem_nil, or_false] at hp
  rcases hp with rfl | rfl
  · simp only [List.mem_cons, List.not_mem_nil, or_false] at hc
    rcases hc with rfl | rfl
    · exact .inl ⟨0, "A", _, rfl, by simp [twoGroups]⟩
    · exact .inl ⟨0, "A", _, rfl, by simp [twoGroups]⟩
  · simp only [List.mem_cons, List.not_mem_nil, or_false] at hc
    rcases hc with rfl | rfl
    · exact .inr ⟨0, "A", rfl, by simp [twoGroups]⟩
    · exact .inl ⟨0, "B", _, rfl, by simp [twoGroups]⟩

example : ∀ t u g n, SetBy exampleProgs t g n → SetBy exampleProgs u g n → t = u := by
  rintro t u g n ⟨p, hp, ty, v, hm⟩ ⟨q, hq, ty', v', hm'⟩
  match t, u, hp, hq with
  | 0, 0, _, _ => rfl
  | 1, 1, _, _ => rfl
  | 0, 1, hp, hq =>
    simp only [exampleProgs, List.getElem?_cons_zero, List.getElem?_cons_succ, Option.some.injEq] at hp hq
    subst hp hq
    simp at hm hm'
    rcases hm with ⟨_, rfl, _⟩ | ⟨_, rfl, _⟩ <;> simp at hm'
  | 1, 0, hp, hq =>
    simp only [exampleProgs, List.getElem?_cons_zero, List.getElem?_cons_succ, Option.some.injEq] at hp hq
    subst hp hq
    simp at hm hm'
    rcases hm' with ⟨_, rfl, _⟩ | ⟨_, rfl, _⟩ <;> simp at hm
  | t + 2, _, hp, _ => simp [exampleProgs] at hp
  | 0, u + 2, _, hq => simp [exampleProgs] at hq
  | 1, u + 2, _, hq => simp [exampleProgs] at hq

example : Typed (fun _ => 7) oneChannel ∧ Typed (fun _ => 7) twoGroups := by
  constructor
  · intro g m hm n i hi
    match g, hm with
    | 0, hm =>
      simp only [oneChannel, List.getElem?_cons_zero, Option.some.injEq] at hm
      subst hm
      by_cases h : n = "A"
      · subst h
        rw [lookup_cons_eq, Option.some.injEq] at hi
        subst hi
        exact ⟨_, rfl, rfl⟩
      · rw [lookup_cons_ne h] at hi; simp at hi
    | 1, hm => simp [oneChannel] at hm; subst hm; simp at hi
    | g + 2, hm => simp [oneChannel] at hm
  · intro g m hm n i hi
    match g, hm with
    | 0, hm => simp [twoGroups] at hm; subst hm; simp at hi
    | 1, hm => simp [twoGroups] at hm; subst hm; simp at hi
    | g + 2, hm => simp [twoGroups] at hm

example : lastSet [.setter 0 "A" 7 (.matrix 1 1 [1]), .setter 0 "A" 7 (.matrix 1 1 [4])] 0 "A" =
    some (.matrix 1 1 [4]) := by decide

/-- The comparisons `a == b` and `b == c` go upwards, `a == b` and `b == a` do not in any order. -/
example : (∀ p ∈ [[Call.compare 0 1], [Call.compare 1 2]], ∀ c ∈ p, Upwards id c) ∧
    ¬ ∃ rank, ∀ p ∈ [[Call.compare 0 1], [Call.compare 1 0]], ∀ c ∈ p, Upwards rank c := by
  constructor
  · intro p hp c hc l r e hne
    subst e
    simp at hp
    rcases hp with rfl | rfl <;> simp at hc <;> simp [hc]
  · rintro ⟨rank, h⟩
    have h1 := h [.compare 0 1] (by simp) (.compare 0 1) (by simp) 0 1 rfl (by simp)
    have h2 := h [.compare 1 0] (by simp) (.compare 1 0) (by simp) 1 0 rfl (by simp)
    omega

/-- A state in which two threads have read different groups. -/
example : ∃ s, Reachable twoGroups [[.has 0 "A"], [.add 1 "B" 7]] s ∧
    s.threads = [⟨[], .loaded (.has 0 "A") [0] [(0, [])]⟩, ⟨[], .loaded (.add 1 "B" 7) [1] [(1, [])]⟩] :=
  ⟨_, reachable_of_run (sched := [0, 1, 0, 1, 0, 1]) rfl, rfl⟩

/-- A thread waits for the mutex that another has. -/
example : ∃ s, Reachable twoGroups [[.has 0 "A"], [.add 0 "B" 7]] s ∧ stepThread s 1 = none ∧
    s.owner 0 = some 0 := ⟨_, reachable_of_run (sched := [0, 1, 0]) rfl, rfl, rfl⟩

end Verif.Channels.Concurrent
