import Verif.NPipeline.ShutdownProps

/-!
# Property C144: what blocking calls wait for, and what they return
-/

namespace Verif.NPipeline.Shutdown

/-! ### Specification -/

/-- What each call has to wait for: the getters while no n-frame is complete, `processImageBlockingIfFull` while
`maxQueue` or more are. -/
def MustWait : Call → Nat → Prop
  | .next, n => n = 0
  | .latest, n => n = 0
  | .put maxQueue, n => maxQueue ≤ n

/-- How many complete n-frames are left by a call that returns `true` and found `n`. -/
def Left : Call → Nat → Nat → Prop
  | .next, n, n' => n = n' + 1
  | .latest, _, n' => n' = 0
  | .put _, n, n' => n' = n

/-- The thread is in this call. -/
def InCall (c : Call) (p : Pc) : Prop :=
  p = .lock c ∨ p = .testFlag c ∨ p = .testQueue c ∨ p = .wait c ∨ p = .asleep c ∨ p = .wake c ∨ p = .recheck c

/-- At most this many of its own actions are left to a thread whose call need not wait. -/
def left : Pc → Nat
  | .lock _ => 3
  | .testFlag _ => 2
  | .testQueue _ => 1
  | .wake _ => 2
  | .recheck _ => 1
  | _ => 0

/-! ### Nobody sleeps without reason -/

theorem blocked_iff (c : Call) (n : Nat) : c.blocked n = true ↔ MustWait c n := by
  cases c <;> simp [Call.blocked, MustWait]

theorem not_blocked_iff (c : Call) (n : Nat) : c.blocked n = false ↔ ¬ MustWait c n := by
  rw [← blocked_iff, Bool.not_eq_true]

theorem mono_empty {c : Call} {m n : Nat} (hc : c.waitsNotEmpty = true) (hmn : n ≤ m) (h : MustWait c m) :
    MustWait c n := by
  cases c <;> simp_all [Call.waitsNotEmpty, MustWait]

theorem mono_full {c : Call} {m n : Nat} (hc : c.waitsNotEmpty = false) (hmn : m ≤ n) (h : MustWait c m) :
    MustWait c n := by
  cases c <;> simp_all [Call.waitsNotEmpty, MustWait]
  exact Nat.le_trans h hmn

/-- Sleepers and threads about to sleep have to wait. -/
def Reason (s : State) : Prop :=
  ∀ t c, s.pc t = .asleep c ∨ s.pc t = .wait c → MustWait c s.completed

theorem wait_wakeEmpty {c : Call} {p : Pc} (h : wakeEmpty p = .wait c) : p = .wait c := by
  cases p <;> simp only [wakeEmpty] at h <;> try exact h
  split at h <;> simp at h

theorem wait_wakeFull {c : Call} {p : Pc} (h : wakeFull p = .wait c) : p = .wait c := by
  cases p <;> simp only [wakeFull] at h <;> try exact h
  split at h <;> simp at h

theorem Reason.finish {s : State} (hr : Reason s) (hi : Inv s) {t : Nat} (hp : Holds (s.pc t)) (c0 : Call)
    (hn : ¬ MustWait c0 s.completed) : Reason (finish s t c0) := by
  have hw : ∀ u c, u ≠ t → s.pc u ≠ .wait c := by
    intro u c hu hc
    have h1 := (hi.holder u).1 (by rw [hc]; trivial)
    have h2 := (hi.holder t).1 hp
    rw [h1] at h2
    exact hu (Option.some.inj h2)
  intro u c h
  by_cases hu : u = t
  · subst hu
    cases c0 <;> simp [Shutdown.finish, put] at h
  · cases c0 with
    | next =>
      simp only [Shutdown.finish, put, if_neg hu] at h ⊢
      rcases h with h | h
      · have ⟨h1, h2⟩ := asleep_wakeFull h
        have := hr u c (.inl h1)
        exact mono_empty h2 (Nat.sub_le _ _) this
      · exact absurd (wait_wakeFull h) (hw u c hu)
    | latest =>
      simp only [Shutdown.finish, put, if_neg hu] at h ⊢
      rcases h with h | h
      · have ⟨h1, h2⟩ := asleep_wakeFull h
        exact mono_empty h2 (Nat.zero_le _) (hr u c (.inl h1))
      · exact absurd (wait_wakeFull h) (hw u c hu)
    | put m =>
      simp only [Shutdown.finish, put, if_neg hu] at h ⊢
      exact hr u c h

theorem Reason.put {s s' : State} (hr : Reason s) {t : Nat} {p : Pc} (hc : s'.completed = s.completed)
    (hpc : s'.pc = Shutdown.put s.pc t p)
    (hp : ∀ c, p = .asleep c ∨ p = .wait c → MustWait c s.completed) : Reason s' := by
  intro u c h
  rw [hpc] at h
  rw [hc]
  by_cases hu : u = t
  · subst hu
    rw [put_eq] at h
    exact hp c h
  · rw [put_ne _ _ hu] at h
    exact hr u c h

theorem Reason.act {s s' : State} (hr : Reason s) (hi : Inv s) {t : Nat} (e : Shutdown.act s t = some s') :
    Reason s' := by
  unfold Shutdown.act at e
  cases hp : s.pc t with
  | idle => rw [hp] at e; simp at e
  | asleep c => rw [hp] at e; simp at e
  | lock c =>
    rw [hp] at e
    simp only at e
    split at e
    · cases e; exact hr.put rfl rfl (by rintro c (h | h) <;> simp at h)
    · simp at e
  | wake c =>
    rw [hp] at e
    simp only at e
    split at e
    · cases e; exact hr.put rfl rfl (by rintro c (h | h) <;> simp at h)
    · simp at e
  | testFlag c =>
    rw [hp] at e
    simp only at e
    split at e <;> cases e <;> exact hr.put rfl rfl (by rintro c (h | h) <;> simp at h)
  | testQueue c =>
    rw [hp] at e
    simp only at e
    by_cases hb : c.blocked s.completed = true
    · rw [if_pos hb] at e
      cases e
      refine hr.put rfl rfl ?_
      rintro c' (h | h)
      · simp at h
      · cases h
        exact (blocked_iff _ _).1 hb
    · rw [if_neg hb] at e
      cases e
      exact hr.finish hi (by rw [hp]; trivial) c (fun h => hb ((blocked_iff _ _).2 h))
  | recheck c =>
    rw [hp] at e
    simp only at e
    by_cases hb : c.blocked s.completed = true
    · rw [if_pos hb] at e
      cases e
      exact hr.put rfl rfl (by rintro c (h | h) <;> simp at h)
    · rw [if_neg hb] at e
      cases e
      exact hr.finish hi (by rw [hp]; trivial) c (fun h => hb ((blocked_iff _ _).2 h))
  | wait c =>
    rw [hp] at e
    simp only at e
    cases e
    refine hr.put rfl rfl ?_
    rintro c' (h | h)
    · cases h
      exact hr t c (.inr hp)
    · simp at h

theorem Reason.step {s s' : State} {l : Label} (hr : Reason s) (hi : Inv s) (e : Shutdown.step s l = some s') :
    Reason s' := by
  have nowait : s.holder = none → ∀ u c, s.pc u ≠ .wait c := by
    intro hn u c hc
    have := (hi.holder u).1 (by rw [hc]; trivial)
    rw [hn] at this
    simp at this
  cases l with
  | call t c =>
    simp only [Shutdown.step] at e
    split at e
    · cases e; exact hr.put rfl rfl (by rintro c (h | h) <;> simp at h)
    · simp at e
  | act t => exact hr.act hi e
  | spurious t =>
    simp only [Shutdown.step] at e
    split at e
    · cases e; exact hr.put rfl rfl (by rintro c (h | h) <;> simp at h)
    · simp at e
  | setFlag =>
    simp only [Shutdown.step] at e
    split at e
    · cases e; exact hr
    · simp at e
  | notifyEmpty =>
    simp only [Shutdown.step] at e
    split at e
    · cases e
      rintro u c (h | h)
      · exact hr u c (.inl (asleep_wakeEmpty h).1)
      · exact hr u c (.inr (wait_wakeEmpty h))
    · simp at e
  | notifyFull =>
    simp only [Shutdown.step] at e
    split at e
    · cases e
      rintro u c (h | h)
      · exact hr u c (.inl (asleep_wakeFull h).1)
      · exact hr u c (.inr (wait_wakeFull h))
    · simp at e
  | complete =>
    simp only [Shutdown.step] at e
    split at e
    · rename_i hn
      cases e
      rintro u c (h | h)
      · have ⟨h1, h2⟩ := asleep_wakeEmpty h
        exact mono_full h2 (Nat.le_succ _) (hr u c (.inl h1))
      · exact absurd (wait_wakeEmpty h) (nowait hn u c)
    · simp at e
  | consume n =>
    simp only [Shutdown.step] at e
    split at e
    · rename_i hn
      cases e
      rintro u c (h | h)
      · have ⟨h1, h2⟩ := asleep_wakeFull h
        exact mono_empty h2 (Nat.sub_le _ _) (hr u c (.inl h1))
      · exact absurd (wait_wakeFull h) (nowait hn.1 u c)
    · simp at e

theorem reason {s : State} (h : Reachable s) : Reason s := by
  induction h with
  | init => rintro t c (h | h) <;> simp [State.init] at h
  | step hr e ih => exact ih.step (reachable_inv hr) e

/-- **C144, nobody sleeps without reason.** At every moment of every run, a thread that sleeps in a getter has nothing to
get, and one that sleeps in `processImageBlockingIfFull` finds the output queue full: no notification is missed. -/
theorem sleeps_only_if_needed {s : State} (h : Reachable s) {t : Nat} {c : Call} (hp : s.pc t = .asleep c) :
    MustWait c s.completed := reason h t c (.inl hp)

/-! ### A call that need not wait is never stuck -/

/-- **C144, progress.** If the queue does not make a call wait, the thread that is in it can go on, or the thread that
holds the mutex can. -/
theorem not_stuck {s : State} (h : Reachable s) {t : Nat} {c : Call} (hc : InCall c (s.pc t))
    (hw : ¬ MustWait c s.completed) : ∃ u s', (u = t ∨ s.holder = some u) ∧ step s (.act u) = some s' := by
  have hi := reachable_inv h
  have hold : ∀ u, s.holder = some u → ∃ s', step s (.act u) = some s' := by
    intro u hu
    have := (hi.holder u).2 hu
    simp only [step, act]
    cases hp : s.pc u with
    | testFlag c => simp only; split <;> exact ⟨_, rfl⟩
    | testQueue c => simp only; split <;> exact ⟨_, rfl⟩
    | wait c => exact ⟨_, rfl⟩
    | recheck c => simp only; split <;> exact ⟨_, rfl⟩
    | _ => rw [hp] at this; exact absurd this (by simp [Holds])
  cases hh : s.holder with
  | some u =>
    obtain ⟨s', hs⟩ := hold u hh
    exact ⟨u, s', .inr rfl, hs⟩
  | none =>
    have nh : ¬ Holds (s.pc t) := by rw [hi.holder t, hh]; simp
    rcases hc with hp | hp | hp | hp | hp | hp | hp
    · refine ⟨t, { s with holder := some t, pc := put s.pc t (.testFlag c) }, .inl rfl, ?_⟩
      simp only [step, act, hp, hh, if_true]
    · rw [hp] at nh; exact absurd trivial nh
    · rw [hp] at nh; exact absurd trivial nh
    · rw [hp] at nh; exact absurd trivial nh
    · exact absurd (sleeps_only_if_needed h hp) hw
    · refine ⟨t, { s with holder := some t, pc := put s.pc t (.recheck c) }, .inl rfl, ?_⟩
      simp only [step, act, hp, hh, if_true]
    · rw [hp] at nh; exact absurd trivial nh

/-- **C144, a call that need not wait returns.** While the queue does not make the call of a thread wait, every action
of the thread brings it closer to the end of its call: it returns after at most three. -/
theorem comes_to_end {s s' : State} (h : Reachable s) {t : Nat} {c : Call} (hc : InCall c (s.pc t))
    (hw : ¬ MustWait c s.completed) (e : step s (.act t) = some s') :
    0 < left (s.pc t) ∧ left (s.pc t) ≤ 3 ∧ left (s'.pc t) < left (s.pc t) ∧
      (left (s'.pc t) = 0 → s'.pc t = .idle) := by
  have hb := (not_blocked_iff _ _).2 hw
  have hfin : (finish s t c).pc t = .idle := by cases c <;> simp [finish, put]
  simp only [step, act] at e
  rcases hc with hp | hp | hp | hp | hp | hp | hp
  · rw [hp] at e ⊢
    simp only at e
    split at e
    · cases e; simp [put, left]
    · simp at e
  · rw [hp] at e ⊢
    simp only at e
    split at e <;> cases e <;> simp [put, left]
  · rw [hp] at e ⊢
    simp only [hb, Bool.false_eq_true, if_false, Option.some.injEq] at e
    subst e
    rw [hfin]
    simp [left]
  · exact absurd (reason h t c (.inr hp)) hw
  · exact absurd (reason h t c (.inl hp)) hw
  · rw [hp] at e ⊢
    simp only at e
    split at e
    · cases e; simp [put, left]
    · simp at e
  · rw [hp] at e ⊢
    simp only [hb, Bool.false_eq_true, if_false, Option.some.injEq] at e
    subst e
    rw [hfin]
    simp [left]

/-! ### What calls return, and what becomes of the queue -/

/-- **C144, results.** A call that returns `true` did not have to wait at that moment and has taken what it should: a
getter of the next n-frame one, a getter of the latest all, and `processImageBlockingIfFull` none. A call returns `false`
only if `shutdown` has been called, and leaves the queue as it was. No other thread's results change. -/
theorem returns {s s' : State} {t : Nat} {c : Call} (hc : InCall c (s.pc t)) (e : step s (.act t) = some s')
    (hd : s'.pc t = .idle) :
    ((s'.results t = s.results t ++ [true] ∧ ¬ MustWait c s.completed ∧ Left c s.completed s'.completed) ∨
      (s'.results t = s.results t ++ [false] ∧ s.flag = true ∧ s'.completed = s.completed)) ∧
      ∀ u, u ≠ t → s'.results u = s.results u := by
  have fin : ∀ (hn : ¬ MustWait c s.completed), (finish s t c).results t = s.results t ++ [true] ∧
      Left c s.completed (finish s t c).completed ∧ ∀ u, u ≠ t → (finish s t c).results u = s.results u := by
    intro hn
    cases c with
    | next =>
      refine ⟨by simp [finish, put], ?_, fun u hu => by simp [finish, put, hu]⟩
      simp only [MustWait] at hn
      simp only [Left, finish]
      omega
    | latest => exact ⟨by simp [finish, put], rfl, fun u hu => by simp [finish, put, hu]⟩
    | put m => exact ⟨by simp [finish, put], rfl, fun u hu => by simp [finish, put, hu]⟩
  simp only [step, act] at e
  rcases hc with hp | hp | hp | hp | hp | hp | hp
  · rw [hp] at e
    simp only at e
    split at e
    · cases e; simp [put] at hd
    · simp at e
  · rw [hp] at e
    simp only at e
    split at e
    · rename_i hf
      cases e
      exact ⟨.inr ⟨by simp [put], hf, rfl⟩, fun u hu => by simp [put, hu]⟩
    · cases e; simp [put] at hd
  · rw [hp] at e
    simp only at e
    by_cases hb : c.blocked s.completed = true
    · rw [if_pos hb] at e
      cases e; simp [put] at hd
    · rw [if_neg hb] at e
      cases e
      have hn : ¬ MustWait c s.completed := fun h => hb ((blocked_iff _ _).2 h)
      obtain ⟨h1, h2, h3⟩ := fin hn
      exact ⟨.inl ⟨h1, hn, h2⟩, h3⟩
  · rw [hp] at e
    cases e; simp [put] at hd
  · rw [hp] at e; simp at e
  · rw [hp] at e
    simp only at e
    split at e
    · cases e; simp [put] at hd
    · simp at e
  · rw [hp] at e
    simp only at e
    by_cases hb : c.blocked s.completed = true
    · rw [if_pos hb] at e
      cases e; simp [put] at hd
    · rw [if_neg hb] at e
      cases e
      have hn : ¬ MustWait c s.completed := fun h => hb ((blocked_iff _ _).2 h)
      obtain ⟨h1, h2, h3⟩ := fin hn
      exact ⟨.inl ⟨h1, hn, h2⟩, h3⟩

/-- **C144, actions inside a call** leave the queue and all results alone, and the thread stays in its call. -/
theorem inside {s s' : State} {t : Nat} {c : Call} (hc : InCall c (s.pc t)) (e : step s (.act t) = some s')
    (hd : s'.pc t ≠ .idle) :
    InCall c (s'.pc t) ∧ s'.completed = s.completed ∧ s'.results = s.results ∧ ∀ u, u ≠ t → s'.pc u = s.pc u := by
  have hfin : (finish s t c).pc t = .idle := by cases c <;> simp [finish, put]
  simp only [step, act] at e
  rcases hc with hp | hp | hp | hp | hp | hp | hp
  · rw [hp] at e
    simp only at e
    split at e
    · cases e; exact ⟨by simp [put, InCall], rfl, rfl, fun u hu => by simp [put, hu]⟩
    · simp at e
  · rw [hp] at e
    simp only at e
    split at e
    · cases e; simp [put] at hd
    · cases e; exact ⟨by simp [put, InCall], rfl, rfl, fun u hu => by simp [put, hu]⟩
  · rw [hp] at e
    simp only at e
    split at e
    · cases e; exact ⟨by simp [put, InCall], rfl, rfl, fun u hu => by simp [put, hu]⟩
    · cases e; exact absurd hfin hd
  · rw [hp] at e
    cases e; exact ⟨by simp [put, InCall], rfl, rfl, fun u hu => by simp [put, hu]⟩
  · rw [hp] at e; simp at e
  · rw [hp] at e
    simp only at e
    split at e
    · cases e; exact ⟨by simp [put, InCall], rfl, rfl, fun u hu => by simp [put, hu]⟩
    · simp at e
  · rw [hp] at e
    simp only at e
    split at e
    · cases e; exact ⟨by simp [put, InCall], rfl, rfl, fun u hu => by simp [put, hu]⟩
    · cases e; exact absurd hfin hd

/-- **C144, everything else** that happens leaves all results alone, and the queue too, unless a worker completes an
n-frame or a call that does not block takes some. -/
theorem elsewhere {s s' : State} {l : Label} (e : step s l = some s') (hl : ∀ t, l ≠ .act t) :
    s'.results = s.results ∧
      (match l with
        | .complete => s'.completed = s.completed + 1
        | .consume n => s.completed = s'.completed + n
        | _ => s'.completed = s.completed) := by
  cases l with
  | act t => exact absurd rfl (hl t)
  | call t c =>
    simp only [step] at e
    split at e
    · cases e; exact ⟨rfl, rfl⟩
    · simp at e
  | spurious t =>
    simp only [step] at e
    split at e
    · cases e; exact ⟨rfl, rfl⟩
    · simp at e
  | setFlag | notifyEmpty | notifyFull | complete =>
    simp only [step] at e
    split at e
    · cases e; exact ⟨rfl, rfl⟩
    · simp at e
  | consume n =>
    simp only [step] at e
    split at e
    · rename_i hn
      cases e
      refine ⟨rfl, ?_⟩
      show s.completed = s.completed - n + n
      omega
    · simp at e

/-! ### Calls after shutdown -/

/-- What holds of thread `t` that entered a call after `shutdown_` was set. -/
def Late (rs : List Bool) (s : State) (t : Nat) : Prop :=
  s.flag = true ∧ ((∃ c, (s.pc t = .lock c ∨ s.pc t = .testFlag c) ∧ s.results t = rs) ∨
    (s.pc t = .idle ∧ s.results t = rs ++ [false]))

theorem Late.keep {rs : List Bool} {s s' : State} {t : Nat} (h : Late rs s t) (hf : s'.flag = s.flag)
    (hr : s'.results t = s.results t)
    (hp : s'.pc t = s.pc t ∨ s'.pc t = wakeEmpty (s.pc t) ∨ s'.pc t = wakeFull (s.pc t)) : Late rs s' t := by
  refine ⟨hf.trans h.1, ?_⟩
  have same : s'.pc t = s.pc t := by
    rcases hp with hp | hp | hp
    · exact hp
    · rw [hp]
      rcases h.2 with ⟨c, (h | h), -⟩ | ⟨h, -⟩ <;> rw [h] <;> rfl
    · rw [hp]
      rcases h.2 with ⟨c, (h | h), -⟩ | ⟨h, -⟩ <;> rw [h] <;> rfl
  rw [same, hr]
  exact h.2

theorem Late.step {rs : List Bool} {s s' : State} {t : Nat} {l : Label} (h : Late rs s t)
    (e : Shutdown.step s l = some s') (hl : ∀ c, l ≠ .call t c) : Late rs s' t := by
  cases l with
  | call u c =>
    have hu : t ≠ u := fun hu => hl c (by rw [hu])
    simp only [Shutdown.step] at e
    split at e
    · cases e; exact h.keep rfl rfl (.inl (by simp [Shutdown.put, hu]))
    · simp at e
  | spurious u =>
    simp only [Shutdown.step] at e
    split at e
    · rename_i c hc
      cases e
      by_cases hu : t = u
      · subst hu
        rcases h.2 with ⟨c, (h | h), -⟩ | ⟨h, -⟩ <;> rw [h] at hc <;> simp at hc
      · exact h.keep rfl rfl (.inl (by simp [Shutdown.put, hu]))
    · simp at e
  | setFlag =>
    simp only [Shutdown.step] at e
    split at e
    · cases e; exact ⟨rfl, h.2⟩
    · simp at e
  | notifyEmpty | complete =>
    simp only [Shutdown.step] at e
    split at e
    · cases e; exact h.keep rfl rfl (.inr (.inl rfl))
    · simp at e
  | notifyFull | consume n =>
    simp only [Shutdown.step] at e
    split at e
    · cases e; exact h.keep rfl rfl (.inr (.inr rfl))
    · simp at e
  | act u =>
    simp only [Shutdown.step] at e
    by_cases hu : t = u
    · subst hu
      unfold Shutdown.act at e
      rcases h.2 with ⟨c, (hp | hp), hr⟩ | ⟨hp, hr⟩
      · rw [hp] at e
        simp only at e
        split at e
        · cases e; exact ⟨h.1, .inl ⟨c, .inr (by simp [Shutdown.put]), hr⟩⟩
        · simp at e
      · rw [hp] at e
        simp only [h.1, if_true, Option.some.injEq] at e
        subst e
        exact ⟨rfl, .inr ⟨by simp [Shutdown.put], by simp [Shutdown.put, hr]⟩⟩
      · rw [hp] at e; simp at e
    · have fin : ∀ c, Late rs (finish s u c) t := by
        intro c
        cases c <;> refine h.keep rfl (by simp [finish, Shutdown.put, hu]) ?_ <;> simp [finish, Shutdown.put, hu]
      unfold Shutdown.act at e
      split at e
      · simp at e
      · split at e
        · cases e; exact h.keep rfl rfl (.inl (by simp [Shutdown.put, hu]))
        · simp at e
      · split at e
        · cases e; exact h.keep rfl (by simp [Shutdown.put, hu]) (.inl (by simp [Shutdown.put, hu]))
        · cases e; exact h.keep rfl rfl (.inl (by simp [Shutdown.put, hu]))
      · split at e
        · cases e; exact h.keep rfl rfl (.inl (by simp [Shutdown.put, hu]))
        · cases e; exact fin _
      · cases e; exact h.keep rfl rfl (.inl (by simp [Shutdown.put, hu]))
      · simp at e
      · split at e
        · cases e; exact h.keep rfl rfl (.inl (by simp [Shutdown.put, hu]))
        · simp at e
      · split at e
        · cases e; exact h.keep rfl rfl (.inl (by simp [Shutdown.put, hu]))
        · cases e; exact fin _

/-- **C144, calls after shutdown.** A call that begins after `shutdown_` was set never waits and returns `false`, whatever
is in the queue: until then the thread is about to take the mutex or to look at `shutdown_`. -/
theorem after_shutdown {t : Nat} : ∀ {ls : List Label} {s s' : State} {c : Call}, s.flag = true → s.pc t = .lock c →
    (∀ l ∈ ls, ∀ c, l ≠ .call t c) → run s ls = some s' →
    (∃ c, (s'.pc t = .lock c ∨ s'.pc t = .testFlag c) ∧ s'.results t = s.results t) ∨
      (s'.pc t = .idle ∧ s'.results t = s.results t ++ [false]) := by
  have key : ∀ (rs : List Bool) (ls : List Label) (s s' : State), Late rs s t →
      (∀ l ∈ ls, ∀ c, l ≠ .call t c) → run s ls = some s' → Late rs s' t := by
    intro rs ls
    induction ls with
    | nil => intro s s' h _ e; cases e; exact h
    | cons l ls ih =>
      intro s s' h hl e
      simp only [run] at e
      cases hs : step s l with
      | none => rw [hs] at e; simp at e
      | some s1 =>
        rw [hs] at e
        exact ih s1 s' (h.step hs (hl l (by simp))) (fun l hm => hl l (by simp [hm])) e
  intro ls s s' c hf hp hl e
  exact (key (s.results t) ls s s' ⟨hf, .inl ⟨c, .inl hp, rfl⟩⟩ hl e).2

/-! ### The size of the output queue -/

/-- The images that one thread puts in one after the other with `processImageBlockingIfFull(…, 1)`, and then the
n-frames that the workers make of them, one of each image. -/
def flood (n : Nat) : List Label :=
  (List.replicate n [Label.call 0 (.put 1), .act 0, .act 0, .act 0]).flatten ++ List.replicate n .complete

theorem run_append {ls ls' : List Label} : ∀ {s s1 : State}, run s ls = some s1 → run s (ls ++ ls') = run s1 ls' := by
  induction ls with
  | nil => intro s s1 e; cases e; rfl
  | cons l ls ih =>
    intro s s1 e
    simp only [run, List.cons_append] at e ⊢
    cases hs : step s l with
    | none => rw [hs] at e; simp at e
    | some s2 => rw [hs] at e; exact ih e

/-- One `processImageBlockingIfFull(…, 1)` by a thread that is alone. -/
theorem one_put {s : State} (hf : s.flag = false) (hh : s.holder = none) (hc : s.completed = 0)
    (hp : s.pc 0 = .idle) : ∃ s', run s [.call 0 (.put 1), .act 0, .act 0, .act 0] = some s' ∧ s'.flag = false ∧
      s'.holder = none ∧ s'.completed = 0 ∧ s'.pc 0 = .idle ∧ s'.results 0 = s.results 0 ++ [true] := by
  refine ⟨{ s with
    pc := put (put (put (put s.pc 0 (.lock (.put 1))) 0 (.testFlag (.put 1))) 0 (.testQueue (.put 1))) 0 .idle
    results := put s.results 0 (s.results 0 ++ [true]) }, ?_, hf, hh, hc, by simp [put], by simp [put]⟩
  simp [run, step, act, hp, hf, hh, hc, put, Call.blocked, finish]

theorem all_puts : ∀ (n : Nat) {s : State}, s.flag = false → s.holder = none → s.completed = 0 → s.pc 0 = .idle →
    ∃ s', run s (List.replicate n [Label.call 0 (.put 1), .act 0, .act 0, .act 0]).flatten = some s' ∧
      s'.holder = none ∧ s'.completed = 0 ∧ s'.results 0 = s.results 0 ++ List.replicate n true := by
  intro n
  induction n with
  | zero => intro s hf hh hc hp; exact ⟨s, rfl, hh, hc, by simp⟩
  | succ n ih =>
    intro s hf hh hc hp
    obtain ⟨s1, e1, f1, h1, c1, p1, r1⟩ := one_put hf hh hc hp
    obtain ⟨s2, e2, h2, c2, r2⟩ := ih f1 h1 c1 p1
    refine ⟨s2, ?_, h2, c2, ?_⟩
    · rw [List.replicate_succ, List.flatten_cons, run_append e1, e2]
    · rw [r2, r1, List.replicate_succ]
      simp

theorem all_completes : ∀ (n : Nat) {s : State}, s.holder = none →
    ∃ s', run s (List.replicate n .complete) = some s' ∧ s'.completed = s.completed + n ∧ s'.results = s.results := by
  intro n
  induction n with
  | zero => intro s _; exact ⟨s, rfl, rfl, rfl⟩
  | succ n ih =>
    intro s hh
    obtain ⟨s2, e2, c2, r2⟩ := ih (s := { s with completed := s.completed + 1, pc := fun u => wakeEmpty (s.pc u) }) hh
    refine ⟨s2, ?_, by rw [c2]; simp only; omega, r2⟩
    simp only [List.replicate_succ, run, step]
    rw [if_pos hh]
    exact e2

/-- The limit of `processImageBlockingIfFull` does not limit the output queue: only complete n-frames are counted, not
the images that are still to be processed. With a limit of one, a thread can put in any number of images without ever
being blocked, all of which may then be complete and waiting. -/
theorem limit_refuted (n : Nat) : ∃ s, run State.init (flood n) = some s ∧
    s.results 0 = List.replicate n true ∧ s.completed = n := by
  obtain ⟨s1, e1, h1, c1, r1⟩ := all_puts n (s := State.init) rfl rfl rfl rfl
  obtain ⟨s2, e2, c2, r2⟩ := all_completes n h1
  refine ⟨s2, ?_, ?_, ?_⟩
  · rw [flood, run_append e1, e2]
  · rw [r2, r1]; simp [State.init]
  · rw [c2, c1, Nat.zero_add]

/-! ### Non-vacuity -/

/-- A getter and a producer both asleep, one woken by a completed n-frame, which it takes. -/
def sleepers : List Label :=
  [.call 0 .next, .act 0, .act 0, .act 0, .act 0, .call 1 (.put 0), .act 1, .act 1, .act 1, .act 1]

example : ∃ s, run State.init sleepers = some s ∧ Reachable s ∧ s.pc 0 = .asleep .next ∧ s.pc 1 = .asleep (.put 0) ∧
    ∃ s', run s [.complete, .act 0, .act 0] = some s' ∧ s'.results 0 = [true] ∧ s'.completed = 0 ∧
      s'.pc 1 = .wake (.put 0) :=
  ⟨_, rfl, run_reachable (ls := sleepers) .init rfl, rfl, rfl, _, rfl, rfl, rfl, rfl⟩

/-- After shutdown a getter returns `false` though an n-frame is complete. -/
example : ∃ s, run State.init [.complete, .setFlag, .call 0 .latest] = some s ∧ s.flag = true ∧
    s.pc 0 = .lock .latest ∧ ∃ s', run s [.act 0, .act 0] = some s' ∧ s'.results 0 = [false] ∧ s'.completed = 1 :=
  ⟨_, rfl, rfl, rfl, _, rfl, rfl, rfl⟩

/-- A getter that has just taken the mutex, with three n-frames complete: it takes all. -/
example : ∃ s, run State.init [.complete, .complete, .complete, .call 0 .latest, .act 0, .act 0] = some s ∧
    InCall .latest (s.pc 0) ∧ ¬ MustWait .latest s.completed ∧
    ∃ s', step s (.act 0) = some s' ∧ s'.pc 0 = .idle ∧ s'.completed = 0 :=
  ⟨_, rfl, .inr (.inr (.inl rfl)), by simp [MustWait, put, State.init], _, rfl, rfl, rfl⟩

end Verif.NPipeline.Shutdown
