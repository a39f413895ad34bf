import Verif.ThreadPool.Invariant

/-!
# Progress lemmas for the thread pool (sleep/wake-up bookkeeping)
-/

namespace Verif.ThreadPool

theorem mem_set_of {α : Type _} {l : List α} {i : Nat} {a b : α} (h : l[i]? = some a) : b ∈ l.set i b := by
  obtain ⟨l1, l2, _, h2⟩ := split_at h
  rw [h2]; simp

theorem mem_runningOf {ws : List WorkerPc} {t : Task} :
    t ∈ runningOf ws ↔ WorkerPc.running t ∈ ws := by
  unfold runningOf
  rw [List.mem_filterMap]
  constructor
  · rintro ⟨w, hw, ht⟩
    cases w <;> simp [WorkerPc.task?] at ht
    subst ht; exact hw
  · intro h; exact ⟨_, h, rfl⟩

/-- Sleeping `waitForEmptyQueue` callers have something to wait for. -/
def WaitInv (s : State) : Prop :=
  s.waitersAsleep > 0 → runningOf s.workers ≠ [] ∨ s.tasks ≠ []

/-- `allow` for usage in which `stop()` is not called while an enqueue call is in progress. -/
def cleanStop : State → Action → Prop := fun s a => a = .stopCall → s.checked = []

/-- `allow` for usage in which, in addition, no enqueue call overlaps a `waitForEmptyQueue` call
(for instance because one client thread makes all calls). -/
def sequentialClient : State → Action → Prop := fun s a =>
  (a = .stopCall → s.checked = []) ∧
  (a = .waitCall → s.checked = [] ∧ s.toNotify = 0) ∧
  (∀ g, a = .enqCheck g → s.waitersReady = 0 ∧ s.waitersAsleep = 0)

/-- Invariant for `cleanStop` usage. -/
structure StopInv (s : State) : Prop where
  stopChecked : s.stop = true → s.checked = []
  dtorStop : s.dtor ≠ .notCalled → s.stop = true ∧ s.toNotify = 0 ∧
    s.waitersReady = 0 ∧ s.waitersAsleep = 0
  exited : WorkerPc.exited ∈ s.workers → s.stop = true ∧ s.tasks = []
  joining : s.dtor = .joining ∨ s.dtor = .joined → WorkerPc.asleep ∈ s.workers →
    runningOf s.workers ≠ []

/-- Invariant for `sequentialClient` usage. -/
structure WakeInv (s : State) : Prop where
  waiters : 0 < s.waitersReady + s.waitersAsleep → s.checked = [] ∧ s.toNotify = 0
  awake : (∃ t ∈ s.tasks, runnable s.guards t = true) →
    (∃ w ∈ s.workers, w ≠ .asleep ∧ w ≠ .exited) ∨ 0 < s.toNotify

theorem workers_length_step {s s' : State} {a : Action} (h : Inv s)
    (hs : step s a = some (.ok s')) : s'.workers.length = s.workers.length := by
  cases a <;> simp only [step] at hs
  case work i =>
    split at hs
    · cases ht : s.tasks.find? (runnable s.guards) with
      | none => rw [workBody_none h ht] at hs; simp at hs; subst hs; simp
      | some t => rw [workBody_some h ht] at hs; simp at hs; subst hs; simp
    · simp at hs
  case finish i =>
    split at hs
    · rename_i t hi
      rw [finishBody_eq h hi] at hs; simp at hs; subst hs; simp [notifyAll]
    · simp at hs
  all_goals (repeat' split at hs) <;>
    (first
      | (simp at hs; done)
      | (simp at hs; subst hs; simp [pushBody, notifyAll]))

theorem WaitInv.step {s s' : State} {a : Action} (h : Inv s) (hw : WaitInv s)
    (hs : step s a = some (.ok s')) : WaitInv s' := by
  unfold WaitInv at *
  cases a <;> simp only [ThreadPool.step] at hs
  case work i =>
    split at hs
    · rename_i hi
      cases ht : s.tasks.find? (runnable s.guards) with
      | none =>
        rw [workBody_none h ht] at hs; simp at hs; subst hs
        simp only
        rw [running_same hi rfl (by split <;> rfl)]; exact hw
      | some t =>
        rw [workBody_some h ht] at hs; simp at hs; subst hs
        intro _; left
        exact List.ne_nil_of_mem (mem_runningOf.mpr (mem_set_of hi))
    · simp at hs
  case finish i =>
    split at hs
    · rename_i t hi
      rw [finishBody_eq h hi] at hs; simp at hs; subst hs; simp [notifyAll]
    · simp at hs
  case enqPush i =>
    split at hs
    · simp at hs; subst hs; intro _; right; simp [pushBody]
    · simp at hs
  case waitCheck =>
    split at hs
    · simp at hs
    · split at hs
      · rename_i hc
        simp at hs; subst hs
        intro _
        rcases hc with hc | hc
        · left; rw [h.activeEq] at hc; simp only; exact List.ne_nil_of_length_pos hc
        · right; simp only; exact List.ne_nil_of_length_pos hc
      · simp at hs; subst hs; exact hw
  case dtorNotify =>
    split at hs
    · simp at hs; subst hs; simp [notifyAll]
    · simp at hs
  case spuriousWorker i =>
    split at hs
    · rename_i hi
      simp at hs; subst hs; simp only; rw [running_same hi rfl rfl]; exact hw
    · simp at hs
  case enqNotify target =>
    split at hs
    · simp at hs
    · cases target <;> simp only at hs
      case worker i =>
        split at hs
        · rename_i hi
          simp at hs; subst hs; simp only; rw [running_same hi rfl rfl]; exact hw
        · simp at hs
      case waiter =>
        split at hs
        · rename_i hp
          simp at hs; subst hs; intro _; exact hw hp
        · simp at hs
      case nobody =>
        split at hs
        · simp at hs; subst hs; exact hw
        · simp at hs
  case spuriousWaiter =>
    split at hs
    · rename_i hp
      simp at hs; subst hs; intro _; exact hw hp
    · simp at hs
  all_goals (repeat' split at hs) <;>
    (first
      | (simp at hs; done)
      | (simp at hs; subst hs; exact hw))

theorem mem_set_cases {α : Type _} {l : List α} {i : Nat} {a b c : α} (h : l[i]? = some a)
    (hm : c ∈ l.set i b) : c = b ∨ c ∈ l := by
  obtain ⟨l1, l2, h1, h2⟩ := split_at h
  rw [h2] at hm; rw [h1]
  simp at hm ⊢
  rcases hm with hm | hm | hm <;> simp [hm]

theorem exited_mem_wake {ws : List WorkerPc} (h : WorkerPc.exited ∈ ws.map wake) :
    WorkerPc.exited ∈ ws := by
  obtain ⟨w, hw, he⟩ := List.mem_map.mp h
  cases w <;> simp [wake] at he; exact hw

theorem asleep_not_mem_wake {ws : List WorkerPc} : WorkerPc.asleep ∉ ws.map wake := by
  intro h
  obtain ⟨w, hw, he⟩ := List.mem_map.mp h
  cases w <;> simp [wake] at he

theorem ready_mem_wake {ws : List WorkerPc} (h : WorkerPc.ready ∈ ws) :
    WorkerPc.ready ∈ ws.map wake := List.mem_map.mpr ⟨_, h, rfl⟩

theorem running_of_none_runnable {s : State} (h : Inv s)
    (hf : s.tasks.find? (runnable s.guards) = none) (hne : s.tasks ≠ []) :
    runningOf s.workers ≠ [] := by
  obtain ⟨t, ht⟩ := List.exists_mem_of_ne_nil _ hne
  rw [List.find?_eq_none] at hf
  have hr := hf t ht
  unfold runnable at hr
  have hg : t.group ≠ nonExclusive := by intro hg; simp [hg] at hr
  have hsome := h.guarded t ht hg
  have hl : s.guards.lookup t.group = some true := by
    cases hl : s.guards.lookup t.group with
    | none => simp [hl] at hsome
    | some b => cases b <;> simp_all
  have hgi := h.guardIff t.group hg
  rw [if_pos hl] at hgi
  intro h0; rw [h0] at hgi; simp at hgi

theorem stopInv_init (n : Nat) : StopInv (init n) := by
  constructor <;> simp [init]

theorem StopInv.step {s s' : State} {a : Action} (h : Inv s) (hc : StopInv s)
    (ha : cleanStop s a) (hs : step s a = some (.ok s')) : StopInv s' := by
  obtain ⟨c1, c2, c3, c4⟩ := hc
  cases a <;> simp only [ThreadPool.step] at hs
  case work i =>
    split at hs
    · rename_i hi
      cases ht : s.tasks.find? (runnable s.guards) with
      | none =>
        rw [workBody_none h ht] at hs; simp at hs; subst hs
        refine ⟨c1, c2, ?_, ?_⟩
        · intro hm
          rcases mem_set_cases hi hm with he | he
          · by_cases hx : s.stop = true ∧ s.tasks = []
            · exact hx
            · rw [if_neg hx] at he; simp at he
          · exact c3 he
        · intro hj hm
          simp only
          rw [running_same hi rfl (by split <;> rfl)]
          rcases mem_set_cases hi hm with he | he
          · by_cases hx : s.stop = true ∧ s.tasks = []
            · rw [if_pos hx] at he; simp at he
            · have hst := (c2 (by rcases hj with hj | hj <;> (simp only at hj; rw [hj]; simp))).1
              exact running_of_none_runnable h ht (fun h0 => hx ⟨hst, h0⟩)
          · exact c4 hj he
      | some t =>
        rw [workBody_some h ht] at hs; simp at hs; subst hs
        refine ⟨c1, c2, ?_, ?_⟩
        · intro hm
          rcases mem_set_cases hi hm with he | he
          · simp at he
          · have := c3 he
            rw [this.2] at ht; simp at ht
        · intro _ _
          exact List.ne_nil_of_mem (mem_runningOf.mpr (mem_set_of hi))
    · simp at hs
  case finish i =>
    split at hs
    · rename_i t hi
      rw [finishBody_eq h hi] at hs; simp at hs; subst hs
      refine ⟨c1, ?_, ?_, ?_⟩
      · intro hd
        have := c2 hd
        simp [notifyAll, this]
      · intro hm
        have hm' := exited_mem_wake hm
        rcases mem_set_cases hi hm' with he | he
        · simp at he
        · exact c3 he
      · intro _ hm; exact absurd hm asleep_not_mem_wake
    · simp at hs
  case enqCheck g =>
    split at hs
    · rename_i hd
      split at hs
      · simp at hs; subst hs; exact ⟨c1, c2, c3, c4⟩
      · rename_i hst
        simp at hs; subst hs
        exact ⟨fun h => absurd h hst, c2, c3, c4⟩
    · simp at hs
  case enqPush i =>
    split at hs
    · rename_i t hi
      have hne : s.checked ≠ [] := by intro h0; rw [h0] at hi; simp at hi
      have hstop : ¬ s.stop = true := fun hst => hne (c1 hst)
      simp at hs; subst hs
      refine ⟨fun hst => absurd hst hstop, ?_, ?_, ?_⟩
      · intro hd; exact absurd (c2 hd).1 hstop
      · intro hm; exact absurd (c3 hm).1 hstop
      · intro hj; simp only [pushBody] at hj
        exact absurd (c2 (by rcases hj with hj | hj <;> rw [hj] <;> simp)).1 hstop
    · simp at hs
  case stopCall =>
    split at hs
    · rename_i hd
      simp at hs; subst hs
      refine ⟨fun _ => ha rfl, ?_, ?_, c4⟩
      · intro h0; exact absurd hd h0
      · intro hm; exact ⟨rfl, (c3 hm).2⟩
    · simp at hs
  case dtorStop =>
    split at hs
    · rename_i hd
      simp at hs; subst hs
      refine ⟨fun _ => hd.2.1, ?_, ?_, ?_⟩
      · intro _; exact ⟨rfl, hd.2.2⟩
      · intro hm; exact ⟨rfl, (c3 hm).2⟩
      · intro hj; simp at hj
    · simp at hs
  case dtorNotify =>
    split at hs
    · rename_i hd
      simp at hs; subst hs
      have := c2 (by rw [hd]; simp)
      refine ⟨c1, ?_, ?_, ?_⟩
      · intro _; simp [notifyAll, this]
      · intro hm; exact c3 (exited_mem_wake hm)
      · intro _ hm; exact absurd hm asleep_not_mem_wake
    · simp at hs
  case dtorJoin =>
    split at hs
    · rename_i hd
      simp at hs; subst hs
      refine ⟨c1, ?_, c3, ?_⟩
      · intro _; exact c2 (by rw [hd.1]; simp)
      · intro _ hm; exact absurd (hd.2 _ hm) (by simp)
    · simp at hs
  case spuriousWorker i =>
    split at hs
    · rename_i hi
      simp at hs; subst hs
      refine ⟨c1, c2, ?_, ?_⟩
      · intro hm
        rcases mem_set_cases hi hm with he | he
        · simp at he
        · exact c3 he
      · intro hj hm
        simp only
        rw [running_same hi rfl rfl]
        rcases mem_set_cases hi hm with he | he
        · simp at he
        · exact c4 hj he
    · simp at hs
  case enqNotify target =>
    split at hs
    · simp at hs
    · rename_i hne
      have hnd : ¬ s.dtor ≠ .notCalled := fun hd => hne (c2 hd).2.1
      cases target <;> simp only at hs
      case worker i =>
        split at hs
        · rename_i hi
          simp at hs; subst hs
          refine ⟨c1, fun hd => absurd hd hnd, ?_, ?_⟩
          · intro hm
            rcases mem_set_cases hi hm with he | he
            · simp at he
            · exact c3 he
          · intro hj; simp only at hj
            exact absurd (by rcases hj with hj | hj <;> rw [hj] <;> simp) hnd
        · simp at hs
      case waiter =>
        split at hs
        · simp at hs; subst hs
          exact ⟨c1, fun hd => absurd hd hnd, c3, c4⟩
        · simp at hs
      case nobody =>
        split at hs
        · simp at hs; subst hs
          exact ⟨c1, fun hd => absurd hd hnd, c3, c4⟩
        · simp at hs
  case spuriousWaiter =>
    split at hs
    · rename_i hp
      simp at hs; subst hs
      refine ⟨c1, ?_, c3, c4⟩
      intro hd; have := (c2 hd).2.2.2; omega
    · simp at hs
  case waitCall =>
    split at hs
    · rename_i hd
      simp at hs; subst hs
      exact ⟨c1, fun h0 => absurd hd h0, c3, c4⟩
    · simp at hs
  case waitCheck =>
    split at hs
    · simp at hs
    · rename_i hne
      split at hs
      · simp at hs; subst hs
        exact ⟨c1, fun hd => absurd (c2 hd).2.2.1 hne, c3, c4⟩
      · simp at hs; subst hs
        exact ⟨c1, fun hd => absurd (c2 hd).2.2.1 hne, c3, c4⟩

theorem runnable_find_none {gs : Guards} {ts : List Task} (h : ts.find? (runnable gs) = none) :
    ¬ ∃ t ∈ ts, runnable gs t = true := by
  rintro ⟨t, ht, hr⟩
  rw [List.find?_eq_none] at h
  exact h t ht hr

theorem WakeInv.step {s s' : State} {a : Action} (h : Inv s) (hc : StopInv s) (hw : WakeInv s)
    (hn : s.workers ≠ [])
    (ha : sequentialClient s a) (hs : step s a = some (.ok s')) : WakeInv s' := by
  obtain ⟨w1, w2⟩ := hw
  cases a <;> simp only [ThreadPool.step] at hs
  case work i =>
    split at hs
    · rename_i hi
      cases ht : s.tasks.find? (runnable s.guards) with
      | none =>
        rw [workBody_none h ht] at hs; simp at hs; subst hs
        exact ⟨w1, fun he => absurd he (runnable_find_none ht)⟩
      | some t =>
        rw [workBody_some h ht] at hs; simp at hs; subst hs
        exact ⟨w1, fun _ => Or.inl ⟨_, mem_set_of hi, by simp, by simp⟩⟩
    · simp at hs
  case finish i =>
    split at hs
    · rename_i t hi
      rw [finishBody_eq h hi] at hs; simp at hs; subst hs
      refine ⟨?_, fun _ => Or.inl ⟨.ready, ready_mem_wake (mem_set_of hi), by simp, by simp⟩⟩
      intro hp; simp [notifyAll] at hp; exact w1 (by omega)
    · simp at hs
  case enqCheck g =>
    have := ha.2.2 g rfl
    split at hs
    · split at hs
      · simp at hs; subst hs; exact ⟨w1, w2⟩
      · simp at hs; subst hs
        exact ⟨fun hp => by simp only at hp; omega, w2⟩
    · simp at hs
  case enqPush i =>
    split at hs
    · rename_i t hi
      simp at hs; subst hs
      refine ⟨?_, fun _ => Or.inr (by simp [pushBody])⟩
      intro hp
      have := (w1 hp).1
      rw [this] at hi; simp at hi
    · simp at hs
  case enqNotify target =>
    split at hs
    · simp at hs
    · rename_i hne
      have hnw : s.waitersReady + s.waitersAsleep = 0 := by
        rcases Nat.eq_zero_or_pos (s.waitersReady + s.waitersAsleep) with h0 | h0
        · exact h0
        · exact absurd (w1 h0).2 hne
      cases target <;> simp only at hs
      case worker i =>
        split at hs
        · rename_i hi
          simp at hs; subst hs
          exact ⟨fun hp => by simp only at hp; omega,
            fun _ => Or.inl ⟨_, mem_set_of hi, by simp, by simp⟩⟩
        · simp at hs
      case waiter =>
        split at hs
        · omega
        · simp at hs
      case nobody =>
        split at hs
        · rename_i hno
          simp at hs; subst hs
          refine ⟨fun hp => by simp only at hp; omega, ?_⟩
          rintro ⟨t, ht, hr⟩
          left
          obtain ⟨w, hw⟩ := List.exists_mem_of_ne_nil _ hn
          refine ⟨w, hw, ?_, ?_⟩
          · intro he; rw [he] at hw; exact hno.2 hw
          · intro he; rw [he] at hw
            have := (hc.exited hw).2
            rw [this] at ht; simp at ht
        · simp at hs
  case spuriousWorker i =>
    split at hs
    · rename_i hi
      simp at hs; subst hs
      exact ⟨w1, fun _ => Or.inl ⟨_, mem_set_of hi, by simp, by simp⟩⟩
    · simp at hs
  case spuriousWaiter =>
    split at hs
    · simp at hs; subst hs
      exact ⟨fun hp => w1 (by simp only at hp; omega), w2⟩
    · simp at hs
  case waitCall =>
    split at hs
    · simp at hs; subst hs
      exact ⟨fun _ => ha.2.1 rfl, w2⟩
    · simp at hs
  case waitCheck =>
    split at hs
    · simp at hs
    · split at hs <;> (simp at hs; subst hs)
      · exact ⟨fun hp => w1 (by simp only at hp; omega), w2⟩
      · exact ⟨fun hp => w1 (by simp only at hp; omega), w2⟩
  case stopCall =>
    split at hs
    · simp at hs; subst hs; exact ⟨w1, w2⟩
    · simp at hs
  case dtorStop =>
    split at hs
    · simp at hs; subst hs; exact ⟨w1, w2⟩
    · simp at hs
  case dtorNotify =>
    split at hs
    · simp at hs; subst hs
      refine ⟨fun hp => w1 (by simp [notifyAll] at hp; omega), ?_⟩
      intro he
      rcases w2 he with ⟨w, hw, h1, h2⟩ | hp
      · left
        refine ⟨w, List.mem_map.mpr ⟨w, hw, ?_⟩, h1, h2⟩
        cases w <;> simp [wake] at *
      · exact Or.inr hp
    · simp at hs
  case dtorJoin =>
    split at hs
    · simp at hs; subst hs; exact ⟨w1, w2⟩
    · simp at hs

theorem waitInv_of_reachable {allow : State → Action → Prop} {n : Nat} {s : State}
    (h : Reachable allow n s) : WaitInv s := by
  induction h with
  | init => intro h; simp [init] at h
  | step hr _ hs ih => exact ih.step (Inv.of_reachable hr) hs

theorem stopInv_of_reachable {allow : State → Action → Prop}
    (hallow : ∀ s a, allow s a → cleanStop s a) {n : Nat} {s : State}
    (h : Reachable allow n s) : StopInv s := by
  induction h with
  | init => exact stopInv_init n
  | step hr ha hs ih => exact ih.step (Inv.of_reachable hr) (hallow _ _ ha) hs

theorem workers_length {allow : State → Action → Prop} {n : Nat} {s : State}
    (h : Reachable allow n s) : s.workers.length = n := by
  induction h with
  | init => simp [init]
  | step hr _ hs ih => rw [workers_length_step (Inv.of_reachable hr) hs, ih]

theorem wakeInv_of_reachable {n : Nat} (hn : 0 < n) {s : State}
    (h : Reachable sequentialClient n s) : WakeInv s := by
  induction h with
  | init => constructor <;> simp [init]
  | @step s s' a hr ha hs ih =>
    have hl := workers_length hr
    refine ih.step (Inv.of_reachable hr)
      (stopInv_of_reachable (fun _ _ h => h.1) hr) ?_ ha hs
    intro h0; rw [h0] at hl; simp at hl; omega

end Verif.ThreadPool
