import Verif.NPipeline.Shutdown
import Mathlib.Tactic.Tauto

/-!
# Property C31
-/

namespace Verif.NPipeline.Shutdown

/-- The thread holds the mutex. -/
def Holds : Pc → Prop
  | .testFlag _ | .testQueue _ | .wait _ | .recheck _ => True
  | _ => False

/-- The thread has found `shutdown_` unset and is about to test the queue or to wait. -/
def Between (c : Call) (p : Pc) : Prop := p = .testQueue c ∨ p = .wait c

/-- The invariant. -/
structure Inv (s : State) : Prop where
  holder : ∀ t, Holds (s.pc t) ↔ s.holder = some t
  stage : s.stage = .notCalled ↔ s.flag = false
  between : s.flag = true → ∀ t c, Between c (s.pc t) → Between c (s.atFlag t)
  empty : s.stage = .emptyNotified ∨ s.stage = .returned → ∀ t c, c.waitsNotEmpty = true →
    s.pc t = .asleep c → Between c (s.atFlag t)
  full : s.stage = .returned → ∀ t c, s.pc t = .asleep c → Between c (s.atFlag t)
  unique : s.flag = true → ∀ t t' c c', Between c (s.atFlag t) → Between c' (s.atFlag t') → t = t'

theorem Between.holds {c : Call} {p : Pc} (h : Between c p) : Holds p := by
  rcases h with rfl | rfl <;> trivial

theorem holds_wakeEmpty (p : Pc) : Holds (wakeEmpty p) ↔ Holds p := by
  cases p with
  | asleep c => simp only [wakeEmpty]; split <;> simp [Holds]
  | _ => exact Iff.rfl

theorem holds_wakeFull (p : Pc) : Holds (wakeFull p) ↔ Holds p := by
  cases p with
  | asleep c => simp only [wakeFull]; split <;> simp [Holds]
  | _ => exact Iff.rfl

theorem between_wakeEmpty {c : Call} {p : Pc} (h : Between c (wakeEmpty p)) : Between c p := by
  cases p <;> simp only [wakeEmpty] at h <;> try exact h
  split at h <;> rcases h with h | h <;> simp at h

theorem between_wakeFull {c : Call} {p : Pc} (h : Between c (wakeFull p)) : Between c p := by
  cases p <;> simp only [wakeFull] at h <;> try exact h
  split at h <;> rcases h with h | h <;> simp at h

theorem asleep_wakeEmpty {c : Call} {p : Pc} (h : wakeEmpty p = .asleep c) :
    p = .asleep c ∧ c.waitsNotEmpty = false := by
  cases p <;> simp only [wakeEmpty] at h <;> try (exact absurd h (by simp))
  split at h
  · simp at h
  · rename_i hw
    simp only [Pc.asleep.injEq] at h
    subst h
    exact ⟨rfl, by simpa using hw⟩

theorem asleep_wakeFull {c : Call} {p : Pc} (h : wakeFull p = .asleep c) :
    p = .asleep c ∧ c.waitsNotEmpty = true := by
  cases p <;> simp only [wakeFull] at h <;> try (exact absurd h (by simp))
  split at h
  · rename_i hw
    simp only [Pc.asleep.injEq] at h
    subst h
    exact ⟨rfl, hw⟩
  · simp at h

/-- Steps that leave the shutdown alone: what has to be checked of them. -/
theorem Inv.of_same {s s' : State} (h : Inv s) (hfl : s'.flag = s.flag) (hst : s'.stage = s.stage)
    (hat : s'.atFlag = s.atFlag)
    (hh : ∀ t, Holds (s'.pc t) ↔ s'.holder = some t)
    (hb : s.flag = true → ∀ t c, Between c (s'.pc t) → Between c (s.pc t))
    (ha : ∀ t c, s'.pc t = .asleep c → s.pc t = .asleep c ∨ s.pc t = .wait c) : Inv s' := by
  have hf : s.stage ≠ .notCalled → s.flag = true := by
    intro hn
    have := mt h.stage.mpr hn
    simpa using this
  refine ⟨hh, by rw [hst, hfl]; exact h.stage, ?_, ?_, ?_, ?_⟩
  · intro hf t c hc
    rw [hfl] at hf
    rw [hat]
    exact h.between hf t c (hb hf t c hc)
  · intro hs t c hw hc
    rw [hst] at hs
    rw [hat]
    rcases ha t c hc with hc | hc
    · exact h.empty hs t c hw hc
    · refine h.between (hf ?_) t c (Or.inr hc)
      rcases hs with hs | hs <;> rw [hs] <;> simp
  · intro hs t c hc
    rw [hst] at hs
    rw [hat]
    rcases ha t c hc with hc | hc
    · exact h.full hs t c hc
    · exact h.between (hf (by rw [hs]; simp)) t c (Or.inr hc)
  · rw [hfl, hat]; exact h.unique

theorem put_eq {α : Type} (f : Nat → α) (t : Nat) (x : α) : put f t x t = x := by simp [put]

theorem put_ne {α : Type} (f : Nat → α) {t u : Nat} (x : α) (h : u ≠ t) : put f t x u = f u := by
  simp [put, h]

/-- Only thread `t` moves, to `p`; the holder changes accordingly. -/
theorem Inv.move {s s' : State} (h : Inv s) {t : Nat} {p : Pc} (hfl : s'.flag = s.flag)
    (hst : s'.stage = s.stage) (hat : s'.atFlag = s.atFlag)
    (hpc : s'.pc = put s.pc t p)
    (hh : (Holds p ∧ s'.holder = some t ∧ (s.holder = none ∨ s.holder = some t)) ∨
      (¬ Holds p ∧ Holds (s.pc t) ∧ s'.holder = none) ∨
      (¬ Holds p ∧ ¬ Holds (s.pc t) ∧ s'.holder = s.holder))
    (hb : s.flag = true → ∀ c, Between c p → Between c (s.pc t))
    (ha : ∀ c, p = .asleep c → s.pc t = .wait c) : Inv s' := by
  refine h.of_same hfl hst hat ?_ ?_ ?_
  · intro u
    rw [hpc]
    by_cases hu : u = t
    · subst hu
      rw [put_eq]
      rcases hh with ⟨h1, h2, _⟩ | ⟨h1, h2, h3⟩ | ⟨h1, h2, h3⟩
      · simp [h1, h2]
      · simp [h1, h3]
      · rw [h3]
        have := h.holder u
        tauto
    · rw [put_ne _ _ hu, h.holder u]
      rcases hh with ⟨h1, h2, h3⟩ | ⟨h1, h2, h3⟩ | ⟨h1, h2, h3⟩
      · rw [h2]
        rcases h3 with h3 | h3 <;> rw [h3] <;> simp only [Option.some.injEq] <;>
          constructor <;> intro hx <;> first | (exact absurd hx (by simp)) | exact absurd hx.symm hu
      · have := (h.holder t).mp h2
        rw [this, h3]
        simp only [Option.some.injEq]
        constructor
        · intro hx; exact absurd hx.symm hu
        · intro hx; simp at hx
      · rw [h3]
  · intro hf u c hc
    rw [hpc] at hc
    by_cases hu : u = t
    · subst hu
      rw [put_eq] at hc
      exact hb hf c hc
    · rwa [put_ne _ _ hu] at hc
  · intro u c hc
    rw [hpc] at hc
    by_cases hu : u = t
    · subst hu
      rw [put_eq] at hc
      exact Or.inr (ha c hc)
    · rw [put_ne _ _ hu] at hc
      exact Or.inl hc

theorem Inv.wakeEmpty {s : State} (h : Inv s) (n : Nat) :
    Inv { s with completed := n, pc := fun u => wakeEmpty (s.pc u) } :=
  h.of_same rfl rfl rfl (fun t => (holds_wakeEmpty _).trans (h.holder t))
    (fun _ _ _ hc => between_wakeEmpty hc) (fun _ _ hc => Or.inl (asleep_wakeEmpty hc).1)

theorem Inv.wakeFull {s : State} (h : Inv s) (n : Nat) :
    Inv { s with completed := n, pc := fun u => wakeFull (s.pc u) } :=
  h.of_same rfl rfl rfl (fun t => (holds_wakeFull _).trans (h.holder t))
    (fun _ _ _ hc => between_wakeFull hc) (fun _ _ hc => Or.inl (asleep_wakeFull hc).1)

theorem Inv.finish {s : State} (h : Inv s) {t : Nat} (hp : Holds (s.pc t)) (c : Call) :
    Inv (finish s t c) := by
  have hidle : ¬ Holds Pc.idle := fun h => h
  have nb : ∀ c, ¬ Between c Pc.idle := by rintro c (h | h) <;> simp at h
  cases c with
  | next =>
    refine (h.wakeFull (s.completed - 1)).move (t := t) (p := .idle) rfl rfl rfl rfl
      (Or.inr (Or.inl ⟨hidle, (holds_wakeFull _).mpr hp, rfl⟩)) (fun _ c hc => absurd hc (nb c)) (by simp)
  | latest =>
    refine (h.wakeFull 0).move (t := t) (p := .idle) rfl rfl rfl rfl
      (Or.inr (Or.inl ⟨hidle, (holds_wakeFull _).mpr hp, rfl⟩)) (fun _ c hc => absurd hc (nb c)) (by simp)
  | put m =>
    exact h.move (t := t) (p := .idle) rfl rfl rfl rfl (Or.inr (Or.inl ⟨hidle, hp, rfl⟩))
      (fun _ c hc => absurd hc (nb c)) (by simp)

theorem Inv.act {s s' : State} (h : Inv s) {t : Nat} (e : Shutdown.act s t = some s') : Inv s' := by
  unfold Shutdown.act at e
  have hself := h.holder t
  cases hp : s.pc t with
  | idle => rw [hp] at e; simp at e
  | lock c =>
    rw [hp] at e
    simp only at e
    by_cases hn : s.holder = none
    · rw [if_pos hn, Option.some.injEq] at e
      subst e
      exact h.move rfl rfl rfl rfl (Or.inl ⟨trivial, rfl, Or.inl hn⟩)
        (by rintro _ c (h | h) <;> simp at h) (by simp)
    · rw [if_neg hn] at e; simp at e
  | testFlag c =>
    rw [hp] at e hself
    simp only at e
    by_cases hf : s.flag = true
    · rw [if_pos hf, Option.some.injEq] at e
      subst e
      exact h.move (p := .idle) rfl rfl rfl rfl (Or.inr (Or.inl ⟨fun h => h, by rw [hp]; trivial, rfl⟩))
        (by rintro _ c (h | h) <;> simp at h) (by simp)
    · rw [if_neg hf, Option.some.injEq] at e
      subst e
      exact h.move rfl rfl rfl rfl (Or.inl ⟨trivial, hself.mp trivial, Or.inr (hself.mp trivial)⟩)
        (fun hh => absurd hh hf) (by simp)
  | testQueue c =>
    rw [hp] at e hself
    simp only at e
    by_cases hb : c.blocked s.completed = true
    · rw [if_pos hb, Option.some.injEq] at e
      subst e
      refine h.move rfl rfl rfl rfl (Or.inl ⟨trivial, hself.mp trivial, Or.inr (hself.mp trivial)⟩)
        ?_ (by simp)
      rintro _ c' (h | h)
      · simp at h
      · simp only [Pc.wait.injEq] at h
        rw [hp, h]
        exact Or.inl rfl
    · rw [if_neg hb, Option.some.injEq] at e
      subst e
      exact h.finish (by rw [hp]; trivial) c
  | wait c =>
    rw [hp] at e
    simp only [Option.some.injEq] at e
    subst e
    refine h.move (p := .asleep c) rfl rfl rfl rfl
      (Or.inr (Or.inl ⟨fun h => h, by rw [hp]; trivial, rfl⟩)) (by rintro _ c (h | h) <;> simp at h) ?_
    intro c' hc'
    simp only [Pc.asleep.injEq] at hc'
    rw [hp, hc']
  | asleep c => rw [hp] at e; simp at e
  | wake c =>
    rw [hp] at e
    simp only at e
    by_cases hn : s.holder = none
    · rw [if_pos hn, Option.some.injEq] at e
      subst e
      exact h.move rfl rfl rfl rfl (Or.inl ⟨trivial, rfl, Or.inl hn⟩)
        (by rintro _ c (h | h) <;> simp at h) (by simp)
    · rw [if_neg hn] at e; simp at e
  | recheck c =>
    rw [hp] at e hself
    simp only at e
    by_cases hb : c.blocked s.completed = true
    · rw [if_pos hb, Option.some.injEq] at e
      subst e
      exact h.move rfl rfl rfl rfl (Or.inl ⟨trivial, hself.mp trivial, Or.inr (hself.mp trivial)⟩)
        (by rintro _ c (h | h) <;> simp at h) (by simp)
    · rw [if_neg hb, Option.some.injEq] at e
      subst e
      exact h.finish (by rw [hp]; trivial) c

theorem Inv.step {s s' : State} {l : Label} (h : Inv s) (e : Shutdown.step s l = some s') : Inv s' := by
  cases l with
  | call t c =>
    simp only [Shutdown.step] at e
    by_cases hp : s.pc t = .idle
    · rw [if_pos hp, Option.some.injEq] at e
      subst e
      exact h.move (p := .lock c) rfl rfl rfl rfl
        (Or.inr (Or.inr ⟨fun h => h, by rw [hp]; exact fun h => h, rfl⟩))
        (by rintro _ c (h | h) <;> simp at h) (by simp)
    · rw [if_neg hp] at e; simp at e
  | act t => exact h.act e
  | spurious t =>
    simp only [Shutdown.step] at e
    cases hp : s.pc t <;> rw [hp] at e <;> simp only [Option.some.injEq, reduceCtorEq] at e
    subst e
    rename_i c
    exact h.move (p := .wake c) rfl rfl rfl rfl
      (Or.inr (Or.inr ⟨fun h => h, by rw [hp]; exact fun h => h, rfl⟩))
      (by rintro _ c (h | h) <;> simp at h) (by simp)
  | setFlag =>
    simp only [Shutdown.step] at e
    by_cases hs : s.stage = .notCalled
    · rw [if_pos hs, Option.some.injEq] at e
      subst e
      refine ⟨h.holder, by simp, fun _ t c hc => hc, ?_, ?_, ?_⟩
      · rintro (hh | hh) <;> simp at hh
      · intro hh; simp at hh
      · intro _ t t' c c' h1 h2
        have e1 := (h.holder t).mp h1.holds
        have e2 := (h.holder t').mp h2.holds
        rw [e1] at e2
        simpa using e2
    · rw [if_neg hs] at e; simp at e
  | notifyEmpty =>
    simp only [Shutdown.step] at e
    by_cases hs : s.stage = .flagSet
    · rw [if_pos hs, Option.some.injEq] at e
      subst e
      have hfl : s.flag = true := by
        have : s.stage ≠ .notCalled := by rw [hs]; simp
        simpa using mt h.stage.mpr this
      refine ⟨fun t => (holds_wakeEmpty _).trans (h.holder t), by simp [hfl],
        fun hf t c hc => h.between hf t c (between_wakeEmpty hc), ?_, ?_, h.unique⟩
      · intro _ t c hw hc
        have := (asleep_wakeEmpty hc).2
        rw [hw] at this
        simp at this
      · intro hh; simp at hh
    · rw [if_neg hs] at e; simp at e
  | notifyFull =>
    simp only [Shutdown.step] at e
    by_cases hs : s.stage = .emptyNotified
    · rw [if_pos hs, Option.some.injEq] at e
      subst e
      have hfl : s.flag = true := by
        have : s.stage ≠ .notCalled := by rw [hs]; simp
        simpa using mt h.stage.mpr this
      have key : ∀ t c, Shutdown.wakeFull (s.pc t) = .asleep c → Between c (s.atFlag t) := by
        intro t c hc
        obtain ⟨h1, h2⟩ := asleep_wakeFull hc
        exact h.empty (Or.inl hs) t c h2 h1
      exact ⟨fun t => (holds_wakeFull _).trans (h.holder t), by simp [hfl],
        fun hf t c hc => h.between hf t c (between_wakeFull hc), fun _ t c _ hc => key t c hc,
        fun _ t c hc => key t c hc, h.unique⟩
    · rw [if_neg hs] at e; simp at e
  | complete =>
    simp only [Shutdown.step] at e
    by_cases hn : s.holder = none
    · rw [if_pos hn, Option.some.injEq] at e
      subst e
      exact h.wakeEmpty _
    · rw [if_neg hn] at e; simp at e
  | consume n =>
    simp only [Shutdown.step] at e
    by_cases hn : s.holder = none ∧ 1 ≤ n ∧ n ≤ s.completed
    · rw [if_pos hn, Option.some.injEq] at e
      subst e
      exact h.wakeFull _
    · rw [if_neg hn] at e; simp at e

theorem reachable_inv {s : State} (h : Reachable s) : Inv s := by
  induction h with
  | init =>
    refine ⟨fun t => ?_, by simp [State.init], by simp [State.init], ?_, ?_, by simp [State.init]⟩
    · simp [State.init, Holds]
    · intro hs; simp [State.init] at hs
    · intro hs; simp [State.init] at hs
  | step _ e ih => exact ih.step e

/-- **C31, partial.** Once `shutdown` has returned, a call still asleep belongs to the one thread which, at
the moment `shutdown_` was set, held the mutex between its test of `shutdown_` and its wait.  In particular
every call that was already asleep (or had not tested the flag yet) has been woken.

What is missing: that this one thread is woken too, which is false — see `lost_wakeup_refuted`. -/
theorem shutdown_wakes_partial {s : State} (h : Reachable s) (hs : s.stage = .returned) {t : Nat} {c : Call}
    (hc : s.pc t = .asleep c) :
    Between c (s.atFlag t) ∧ ∀ t' c', s.pc t' = .asleep c' → t' = t := by
  have hi := reachable_inv h
  have hfl : s.flag = true := by
    have : s.stage ≠ .notCalled := by rw [hs]; simp
    simpa using mt hi.stage.mpr this
  exact ⟨hi.full hs t c hc, fun t' c' hc' =>
    hi.unique hfl t' t c' c (hi.full hs t' c' hc') (hi.full hs t c hc)⟩

/-- Remaining own steps of a call after shutdown. -/
def rank : Pc → Nat
  | .idle => 0
  | .testFlag _ => 1
  | .lock _ => 2
  | .recheck _ => 2
  | .wake _ => 3
  | _ => 4

theorem rank_wakeFull (p : Pc) : rank (wakeFull p) ≤ rank p := by
  cases p <;> simp only [wakeFull, rank] <;> try exact Nat.le_refl _
  split <;> simp [rank]

theorem rank_wakeEmpty (p : Pc) : rank (wakeEmpty p) ≤ rank p := by
  cases p <;> simp only [wakeEmpty, rank] <;> try exact Nat.le_refl _
  split <;> simp [rank]

/-- **C31, partial (calls end).** After `shutdown` has returned, a call of a thread other than the one of
`shutdown_wakes_partial` needs at most three more actions of its own, whatever else happens: each of its
actions brings it closer to its return and no step of anything else moves it away. -/
theorem calls_end_partial {s s' : State} {l : Label} (h : Reachable s) (hs : s.stage = .returned)
    {t : Nat} (ht : ∀ c, ¬ Between c (s.atFlag t)) (e : step s l = some s') (hl : ∀ c, l ≠ .call t c) :
    rank (s.pc t) ≤ 3 ∧ rank (s'.pc t) ≤ rank (s.pc t) ∧ (l = .act t → rank (s'.pc t) < rank (s.pc t)) := by
  have hi := reachable_inv h
  have hfl : s.flag = true := by
    have : s.stage ≠ .notCalled := by rw [hs]; simp
    simpa using mt hi.stage.mpr this
  have h3 : rank (s.pc t) ≤ 3 := by
    cases hp : s.pc t <;> simp only [rank] <;> try omega
    · exact absurd (hi.between hfl t _ (by rw [hp]; exact Or.inl rfl)) (ht _)
    · exact absurd (hi.between hfl t _ (by rw [hp]; exact Or.inr rfl)) (ht _)
    · exact absurd (hi.full hs t _ hp) (ht _)
  refine ⟨h3, ?_⟩
  have fin : ∀ u c, rank ((finish s u c).pc t) ≤ rank (s.pc t) ∧
      (u = t → (finish s u c).pc t = .idle) := by
    intro u c
    cases c <;> simp only [finish, put] <;> by_cases hu : t = u
    · simp [hu, rank]
    · rw [if_neg hu]; exact ⟨rank_wakeFull _, fun h => absurd h.symm hu⟩
    · simp [hu, rank]
    · rw [if_neg hu]; exact ⟨rank_wakeFull _, fun h => absurd h.symm hu⟩
    · simp [hu, rank]
    · rw [if_neg hu]; exact ⟨Nat.le_refl _, fun h => absurd h.symm hu⟩
  cases l with
  | call u c =>
    simp only [step] at e
    have hu : t ≠ u := by intro hh; exact hl c (by rw [hh])
    by_cases hp : s.pc u = .idle
    · rw [if_pos hp, Option.some.injEq] at e
      subst e
      simp [put_ne _ _ hu]
    · rw [if_neg hp] at e; simp at e
  | act u =>
    simp only [step, act] at e
    by_cases hu : t = u
    · subst hu
      cases hp : s.pc t with
      | idle => rw [hp] at e; simp at e
      | lock c =>
        rw [hp] at e
        simp only at e
        split at e
        · rw [Option.some.injEq] at e; subst e; simp [put_eq, rank]
        · simp at e
      | testFlag c =>
        rw [hp] at e
        simp only [hfl, if_true, Option.some.injEq] at e
        subst e; simp [put_eq, rank]
      | testQueue c => rw [hp] at h3; simp [rank] at h3
      | wait c => rw [hp] at h3; simp [rank] at h3
      | asleep c => rw [hp] at h3; simp [rank] at h3
      | wake c =>
        rw [hp] at e
        simp only at e
        split at e
        · rw [Option.some.injEq] at e; subst e; simp [put_eq, rank]
        · simp at e
      | recheck c =>
        rw [hp] at e
        simp only at e
        split at e
        · rw [Option.some.injEq] at e; subst e; simp [put_eq, rank]
        · rw [Option.some.injEq] at e; subst e
          rw [(fin t c).2 rfl]; simp [rank]
    · have hne : Label.act u ≠ Label.act t := by simp; exact fun h => hu h.symm
      refine ⟨?_, fun h => absurd h hne⟩
      cases hp : s.pc u <;> rw [hp] at e <;> simp only [reduceCtorEq] at e <;>
        (try split at e) <;> simp only [Option.some.injEq, reduceCtorEq] at e <;> subst e <;>
        first | exact (fin u _).1 | (simp only [put_ne _ _ hu]; exact Nat.le_refl _)
  | spurious u =>
    refine ⟨?_, by simp⟩
    simp only [step] at e
    cases hp : s.pc u <;> rw [hp] at e <;> simp only [Option.some.injEq, reduceCtorEq] at e
    subst e
    by_cases hu : t = u
    · subst hu; simp [put_eq, hp, rank]
    · simp only [put_ne _ _ hu]; exact Nat.le_refl _
  | setFlag => simp [step, hs] at e
  | notifyEmpty => simp [step, hs] at e
  | notifyFull => simp [step, hs] at e
  | complete =>
    refine ⟨?_, by simp⟩
    simp only [step] at e
    split at e
    · rw [Option.some.injEq] at e; subst e; exact rank_wakeEmpty _
    · simp at e
  | consume n =>
    refine ⟨?_, by simp⟩
    simp only [step] at e
    split at e
    · rw [Option.some.injEq] at e; subst e; exact rank_wakeFull _
    · simp at e

/-- **C31, partial (no deadlock).** After `shutdown` has returned, if such a call has not ended, then its
thread or the thread holding the mutex can act; so when nothing can act any more, every such call has
returned. -/
theorem no_deadlock_partial {s : State} (h : Reachable s) (hs : s.stage = .returned) {t : Nat}
    (ht : ∀ c, ¬ Between c (s.atFlag t)) (hp : s.pc t ≠ .idle) :
    ∃ u s', (u = t ∨ s.holder = some u) ∧ step s (.act u) = some s' := by
  have hi := reachable_inv h
  have hfl : s.flag = true := by
    have : s.stage ≠ .notCalled := by rw [hs]; simp
    simpa using mt hi.stage.mpr this
  have holder_acts : ∀ u, Holds (s.pc u) → ∃ s', act s u = some s' := by
    intro u hu
    unfold act
    cases hq : s.pc u <;> rw [hq] at hu <;> simp only [Holds] at hu <;> simp only
    · simp [hfl]
    · split <;> exact ⟨_, rfl⟩
    · exact ⟨_, rfl⟩
    · split <;> exact ⟨_, rfl⟩
  cases hh : s.holder with
  | some u =>
    obtain ⟨s', hs'⟩ := holder_acts u ((hi.holder u).mpr hh)
    exact ⟨u, s', Or.inr rfl, hs'⟩
  | none =>
    refine ⟨t, ?_⟩
    cases hq : s.pc t with
    | idle => exact absurd hq hp
    | lock c => exact ⟨_, Or.inl rfl, by simp only [step, act, hq, hh, if_true]; rfl⟩
    | wake c => exact ⟨_, Or.inl rfl, by simp only [step, act, hq, hh, if_true]; rfl⟩
    | asleep c => exact absurd (hi.full hs t c hq) (ht c)
    | testFlag c =>
      have := (hi.holder t).mp (by rw [hq]; trivial)
      rw [hh] at this; simp at this
    | testQueue c =>
      have := (hi.holder t).mp (by rw [hq]; trivial)
      rw [hh] at this; simp at this
    | wait c =>
      have := (hi.holder t).mp (by rw [hq]; trivial)
      rw [hh] at this; simp at this
    | recheck c =>
      have := (hi.holder t).mp (by rw [hq]; trivial)
      rw [hh] at this; simp at this

/-- A label that can wake a sleeping `getNextBlocking` after shutdown: an n-frame still being completed by a
worker, or a spurious wake-up. -/
def Wakes : Label → Prop
  | .complete => True
  | .spurious _ => True
  | _ => False

/-- The losing interleaving. -/
def losing : List Label :=
  [.call 0 .next, .act 0, .act 0, .act 0, .setFlag, .notifyEmpty, .notifyFull, .act 0]

theorem stays_asleep {c : Call} (hc : c.waitsNotEmpty = true) : ∀ (ls : List Label) (s s' : State),
    (∀ l ∈ ls, ¬ Wakes l) → s.stage = .returned → s.pc 0 = .asleep c → run s ls = some s' →
    s'.pc 0 = .asleep c ∧ s'.results 0 = s.results 0
  | [], s, s', _, _, hp, e => by
    simp only [run, Option.some.injEq] at e
    subst e
    exact ⟨hp, rfl⟩
  | l :: ls, s, s', hw, hs, hp, e => by
    simp only [run] at e
    cases hstep : step s l with
    | none => rw [hstep] at e; simp at e
    | some s1 =>
      rw [hstep] at e
      simp only at e
      have hwf : wakeFull (s.pc 0) = .asleep c := by rw [hp]; simp [wakeFull, hc]
      have hfin : ∀ u d, u ≠ 0 → (finish s u d).pc 0 = .asleep c ∧
          (finish s u d).stage = .returned ∧ (finish s u d).results 0 = s.results 0 := by
        intro u d hu
        cases d <;> simp [finish, put, hu.symm, wakeFull, hc, hs, hp]
      have key : s1.pc 0 = .asleep c ∧ s1.stage = .returned ∧ s1.results 0 = s.results 0 := by
        cases l with
        | call u d =>
          simp only [step] at hstep
          split at hstep
          · rename_i hidle
            rw [Option.some.injEq] at hstep
            subst hstep
            have hu : (0 : Nat) ≠ u := by intro hh; rw [← hh, hp] at hidle; simp at hidle
            exact ⟨by simp [put, hu, hp], hs, rfl⟩
          · simp at hstep
        | act u =>
          simp only [step, act] at hstep
          have hu : u ≠ 0 := by
            intro hh
            rw [hh, hp] at hstep
            simp at hstep
          cases hq : s.pc u <;> rw [hq] at hstep <;> simp only [reduceCtorEq] at hstep <;>
            (try split at hstep) <;> simp only [Option.some.injEq, reduceCtorEq] at hstep <;>
            subst hstep <;> first | exact hfin u _ hu | simp [put, hu.symm, hp, hs]
        | spurious u => exact absurd trivial (hw _ List.mem_cons_self)
        | setFlag => simp [step, hs] at hstep
        | notifyEmpty => simp [step, hs] at hstep
        | notifyFull => simp [step, hs] at hstep
        | complete => exact absurd trivial (hw _ List.mem_cons_self)
        | consume n =>
          simp only [step] at hstep
          split at hstep
          · rw [Option.some.injEq] at hstep
            subst hstep
            exact ⟨hwf, hs, rfl⟩
          · simp at hstep
      obtain ⟨a, b⟩ := stays_asleep hc ls s1 s' (fun x hx => hw x (List.mem_cons_of_mem _ hx)) key.2.1 key.1 e
      exact ⟨a, b.trans key.2.2⟩

/-- **C31 refuted.** A caller of `getNextBlocking` tests `shutdown_`, finds it unset and the queue empty; then
`shutdown` runs completely; then the caller goes to sleep.  From there on it sleeps for ever, whatever the
other threads do, unless a worker still completes an n-frame or the wake-up is spurious. -/
theorem lost_wakeup_refuted :
    ∃ s, run State.init losing = some s ∧ s.stage = .returned ∧ s.pc 0 = .asleep .next ∧
      ∀ ls s', (∀ l ∈ ls, ¬ Wakes l) → run s ls = some s' →
        s'.pc 0 = .asleep .next ∧ s'.results 0 = [] :=
  ⟨_, rfl, rfl, rfl, fun ls s' hw e => stays_asleep (c := .next) rfl ls _ s' hw rfl rfl e⟩

/-! ### Non-vacuity -/

theorem run_reachable : ∀ {ls : List Label} {s s' : State}, Reachable s → run s ls = some s' → Reachable s'
  | [], s, s', h, e => by
    simp only [run, Option.some.injEq] at e
    exact e ▸ h
  | l :: ls, s, s', h, e => by
    simp only [run] at e
    cases hs : step s l with
    | none => rw [hs] at e; simp at e
    | some s1 => rw [hs] at e; exact run_reachable (h.step hs) e

/-- Two calls asleep when shutdown is called; it returns, they are woken and return `false`. -/
def goodRun : List Label :=
  [.call 0 .next, .act 0, .act 0, .act 0, .act 0, .call 1 .latest, .act 1, .act 1, .act 1, .act 1,
   .setFlag, .notifyEmpty, .notifyFull]

example : ∃ s, run State.init goodRun = some s ∧ Reachable s ∧ s.stage = .returned ∧
    s.pc 0 = .wake .next ∧ s.pc 1 = .wake .latest ∧ (∀ c, ¬ Between c (s.atFlag 0)) ∧
    ∃ s', run s [.act 0, .act 0, .act 0, .act 1, .act 1, .act 1] = some s' ∧
      s'.results 0 = [false] ∧ s'.results 1 = [false] := by
  refine ⟨_, rfl, run_reachable (ls := goodRun) .init rfl, rfl, rfl, rfl, ?_, _, rfl, rfl, rfl⟩
  intro c hc
  rcases hc with hc | hc <;> exact absurd hc (by simp [put])

end Verif.NPipeline.Shutdown
