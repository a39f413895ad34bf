import Verif.ThreadPool.Progress

/-!
# Properties C01–C06 of the thread pool

The specifications below use only what a client can observe: which tasks were accepted (`pushed`),
which are executing on some worker, and which have returned (`finished`).
-/

namespace Verif.ThreadPool

/-- Task `t` is executing on worker `i`. -/
def ExecutingOn (s : State) (i : Nat) (t : Task) : Prop := s.workers[i]? = some (.running t)

/-- Task `t` is executing. -/
def Executing (s : State) (t : Task) : Prop := ∃ i, ExecutingOn s i t

/-- The task may be started: it is non-exclusive, or no task of its group is executing. -/
def MayStart (s : State) (t : Task) : Prop :=
  t.group = nonExclusive ∨ ∀ u, Executing s u → u.group ≠ t.group

/-- Steps made by the pool and by calls already in progress, i.e. no new client calls and no
spurious wake-ups. -/
def Internal : Action → Prop
  | .enqPush _ | .enqNotify _ | .work _ | .finish _ | .waitCheck | .dtorNotify | .dtorJoin => True
  | _ => False

/-- No internal step is possible: the system stays as it is until a client makes a new call (or an
OS-level spurious wake-up happens). -/
def Quiescent (s : State) : Prop := ∀ a, Internal a → step s a = none

/-- Run a list of actions from a state. -/
def run : State → List Action → Option State
  | s, [] => some s
  | s, a :: as => match step s a with
    | some (.ok s') => run s' as
    | _ => none

theorem reachable_run {allow : State → Action → Prop} {n : Nat} (hall : ∀ s a, allow s a) :
    ∀ {as : List Action} {s s' : State},
    Reachable allow n s → run s as = some s' → Reachable allow n s'
  | [], s, s', h, hr => by simp [run] at hr; subst hr; exact h
  | a :: as, s, s', h, hr => by
    simp only [run] at hr
    split at hr
    · rename_i s1 hs
      exact reachable_run hall (.step h (hall _ _) hs) hr
    · simp at hr

theorem executing_iff {s : State} {t : Task} : Executing s t ↔ t ∈ runningOf s.workers := by
  rw [mem_runningOf, List.mem_iff_getElem?]; rfl

theorem nodup_of_map {α β : Type} (f : α → β) : ∀ {l : List α}, (l.map f).Nodup → l.Nodup
  | [], _ => List.nodup_nil
  | a :: l, h => by
    rw [List.map_cons, List.nodup_cons] at h
    rw [List.nodup_cons]
    exact ⟨fun hm => h.1 (List.mem_map_of_mem hm), nodup_of_map f h.2⟩

/-- The guard-based test in the code coincides with `MayStart` for queued tasks. -/
theorem mayStart_iff {s : State} (h : Inv s) {t : Task} (ht : t ∈ s.tasks) :
    MayStart s t ↔ runnable s.guards t = true := by
  unfold MayStart runnable
  by_cases hg : t.group = nonExclusive
  · simp [hg]
  · have hgi := h.guardIff t.group hg
    have hsome := h.guarded t ht hg
    have hcase : s.guards.lookup t.group = some true ∨ s.guards.lookup t.group = some false := by
      cases hl : s.guards.lookup t.group with
      | none => simp [hl] at hsome
      | some b => cases b <;> simp
    simp only [hg, false_or]
    constructor
    · intro hu
      have : (runningOf s.workers).filter (fun u => u.group == t.group) = [] := by
        rw [List.filter_eq_nil_iff]
        intro u hm
        simpa using hu u (executing_iff.mpr hm)
      rw [this] at hgi
      rcases hcase with hl | hl
      · simp [hl] at hgi
      · simp [hl]
    · intro hr u hu heq
      have hl : ¬ s.guards.lookup t.group = some true := by
        rcases hcase with hl | hl
        · simp [hl, hg] at hr
        · simp [hl]
      rw [if_neg hl] at hgi
      have hm := executing_iff.mp hu
      have : u ∈ (runningOf s.workers).filter (fun u => u.group == t.group) := by
        rw [List.mem_filter]; exact ⟨hm, by simpa using heq⟩
      rw [List.length_eq_zero_iff.mp hgi] at this
      simp at this

theorem two_running_length {g : Nat} : ∀ {ws : List WorkerPc} {i j : Nat} {t u : Task},
    ws[i]? = some (.running t) → ws[j]? = some (.running u) → i < j →
    t.group = g → u.group = g →
    2 ≤ ((runningOf ws).filter (fun x => x.group == g)).length
  | [], _, _, _, _, hi, _, _, _, _ => by simp at hi
  | w :: ws, 0, 0, _, _, _, _, hij, _, _ => by omega
  | w :: ws, i + 1, 0, _, _, _, _, hij, _, _ => by omega
  | w :: ws, 0, j + 1, t, u, hi, hj, _, ht, hu => by
    simp at hi hj
    subst hi
    have hm : u ∈ (runningOf ws).filter (fun x => x.group == g) := by
      rw [List.mem_filter]
      exact ⟨mem_runningOf.mpr (List.mem_of_getElem? hj), by simpa using hu⟩
    have := List.length_pos_of_mem hm
    rw [runningOf_cons_running, List.filter_cons, if_pos (by simpa using ht), List.length_cons]
    omega
  | w :: ws, i + 1, j + 1, t, u, hi, hj, hij, ht, hu => by
    simp at hi hj
    have ih := two_running_length hi hj (by omega) ht hu
    cases w with
    | running x =>
      rw [runningOf_cons_running, List.filter_cons]
      split
      · rw [List.length_cons]; omega
      · exact ih
    | _ => rw [runningOf_cons_other _ _ rfl]; exact ih

/-! ## C01 -/

/-- **C01.** Two tasks with the same exclusivity group id are never executing on two workers at the
same time. -/
theorem ordered_tasks_never_overlap {n : Nat} {s : State} (h : Reachable anyUse n s)
    {i j : Nat} {t u : Task} (hi : ExecutingOn s i t) (hj : ExecutingOn s j u)
    (hg : t.group = u.group) (hne : t.group ≠ nonExclusive) : i = j := by
  have hinv := (Inv.of_reachable h).guardIff t.group hne
  rcases Nat.lt_trichotomy i j with hij | hij | hij
  · have := two_running_length hi hj hij rfl hg.symm
    split at hinv <;> omega
  · exact hij
  · have := two_running_length hj hi hij hg.symm rfl
    split at hinv <;> omega

/-- Non-vacuity: with two workers, a task of group 5 and one of group 6 do execute at the same time
while a second task of group 5 waits. -/
example : ∃ s, Reachable anyUse 2 s ∧ ExecutingOn s 0 ⟨5, 0⟩ ∧ ExecutingOn s 1 ⟨6, 2⟩ ∧
    s.tasks = [⟨5, 1⟩] := by
  refine ⟨_, reachable_run (as := [.enqCheck 5, .enqPush 0, .enqNotify .nobody, .enqCheck 5,
    .enqPush 0, .enqNotify .nobody, .enqCheck 6, .enqPush 0, .enqNotify .nobody,
    .work 0, .work 1]) (fun _ _ => trivial) .init rfl, rfl, rfl, rfl⟩

/-- Every group id but the largest that a `size_t` holds is exclusive. -/
theorem nonExclusive_is_largest (g : Nat) (hg : g < 2 ^ 64) : g = nonExclusive ↔ ∀ h < 2 ^ 64, h ≤ g := by
  constructor
  · rintro rfl h hh
    unfold nonExclusive
    omega
  · intro h
    have := h (2 ^ 64 - 1) (by decide)
    unfold nonExclusive
    omega

example : nonExclusive < 2 ^ 64 := by decide

/-! ## C02 -/

/-- **C02 (start order).** In every group (the non-exclusive one included) the tasks started so far,
in the order they were started, are a prefix of the tasks accepted, in the order of acceptance. -/
theorem group_starts_in_submission_order {n : Nat} {s : State} (h : Reachable anyUse n s)
    (g : Nat) :
    s.started.filter (fun t => t.group == g) <+: s.pushed.filter (fun t => t.group == g) :=
  ⟨_, (Inv.of_reachable h).order g⟩

/-- **C02 (finish order).** For an exclusivity group also the order in which tasks finish is the
order of acceptance. -/
theorem group_finishes_in_submission_order {n : Nat} {s : State} (h : Reachable anyUse n s)
    (g : Nat) (hg : g ≠ nonExclusive) :
    s.finished.filter (fun t => t.group == g) <+: s.pushed.filter (fun t => t.group == g) :=
  List.IsPrefix.trans ⟨_, (Inv.of_reachable h).finOrder g hg⟩
    (group_starts_in_submission_order h g)

/-- **C02 (step form).** When a worker starts `t`, every task of the same exclusivity group accepted
before `t` has already finished. -/
theorem earlier_tasks_of_group_finished {n : Nat} {s : State} (h : Reachable anyUse n s)
    {t : Task} (hx : Executing s t) (hg : t.group ≠ nonExclusive)
    {before after : List Task} (hp : s.pushed = before ++ t :: after)
    {u : Task} (hu : u ∈ before) (hug : u.group = t.group) : u ∈ s.finished := by
  have hinv := Inv.of_reachable h
  obtain ⟨r, hr⟩ := group_starts_in_submission_order h t.group
  have hfin := hinv.finOrder t.group hg
  have hlen := hinv.guardIff t.group hg
  have htm : t ∈ (runningOf s.workers).filter (fun x => x.group == t.group) := by
    rw [List.mem_filter]; exact ⟨executing_iff.mp hx, by simp⟩
  have hone : (runningOf s.workers).filter (fun x => x.group == t.group) = [t] := by
    have h1 : ((runningOf s.workers).filter (fun x => x.group == t.group)).length = 1 := by
      have := List.length_pos_of_mem htm
      split at hlen <;> omega
    obtain ⟨a, ha⟩ := List.length_eq_one_iff.mp h1
    rw [ha] at htm ⊢
    simp at htm; rw [htm]
  rw [hone] at hfin
  rw [← hfin, hp, List.filter_append, List.filter_cons, if_pos (by simp)] at hr
  -- both sides split at the unique occurrence of `t`
  have hnd : (s.pushed.map Task.id).Nodup := by
    have := hinv.idsNodup; rw [List.map_append] at this
    exact (List.nodup_append.mp this).2.1
  have hndt : s.pushed.Nodup := nodup_of_map _ hnd
  have hnot : t ∉ before := by
    rw [hp] at hndt
    intro hm
    exact (List.nodup_append.mp hndt).2.2 t hm t (by simp) rfl
  have hnotf : t ∉ s.finished.filter (fun x => x.group == t.group) := by
    intro hm
    have hst : s.started.Nodup := by
      have := hinv.pushedPerm.nodup_iff.mp hndt
      exact (List.nodup_append.mp this).1
    have := hinv.startedPerm.nodup_iff.mp hst
    exact (List.nodup_append.mp this).2.2 t (executing_iff.mp hx) t (List.mem_filter.mp hm).1 rfl
  have hum : u ∈ before.filter (fun x => x.group == t.group) :=
    List.mem_filter.mpr ⟨hu, by simpa using hug⟩
  have key : before.filter (fun x => x.group == t.group)
      = s.finished.filter (fun x => x.group == t.group) := by
    rw [List.append_assoc, List.singleton_append] at hr
    have hnot' : t ∉ before.filter (fun x => x.group == t.group) :=
      fun hm => hnot (List.mem_filter.mp hm).1
    clear hum
    generalize before.filter (fun x => x.group == t.group) = A at *
    generalize s.finished.filter (fun x => x.group == t.group) = B at *
    generalize List.filter (fun x => x.group == t.group) after = C at *
    clear hfin
    induction A generalizing B with
    | nil => cases B with
      | nil => rfl
      | cons b B => simp at hr; simp [hr.1] at hnotf
    | cons a A ih => cases B with
      | nil => simp at hr; simp [hr.1] at hnot'
      | cons b B =>
        simp at hr hnot' hnotf
        rw [hr.1, ih (by simpa using hnot'.2) B (by simpa using hnotf.2) (by simpa using hr.2)]
  rw [key] at hum
  exact (List.mem_filter.mp hum).1

/-- Non-vacuity: the second task of group 5 executes after the first one finished. -/
example : ∃ s, Reachable anyUse 2 s ∧ Executing s ⟨5, 1⟩ ∧ s.pushed = [⟨5, 0⟩] ++ ⟨5, 1⟩ :: [] ∧
    s.finished = [⟨5, 0⟩] := by
  refine ⟨_, reachable_run (as := [.enqCheck 5, .enqPush 0, .enqNotify .nobody, .enqCheck 5,
    .enqPush 0, .enqNotify .nobody, .work 0, .finish 0, .work 1]) (fun _ _ => trivial) .init rfl,
    ⟨1, rfl⟩, rfl, rfl⟩

/-! ## C03 -/

/-- **C03.** Each accepted task is in exactly one place, once: waiting in the queue, executing on one
worker, or finished; and nothing else is in any of these places. -/
theorem task_in_exactly_one_place {n : Nat} {s : State} (h : Reachable anyUse n s) :
    s.pushed.Perm (s.tasks ++ s.workers.filterMap WorkerPc.task? ++ s.finished) ∧
    (s.pushed.map Task.id).Nodup := by
  have hinv := Inv.of_reachable h
  constructor
  · refine hinv.pushedPerm.trans ?_
    refine (hinv.startedPerm.append_right _).trans ?_
    show (runningOf s.workers ++ s.finished ++ s.tasks).Perm (s.tasks ++ runningOf s.workers ++ s.finished)
    rw [List.append_assoc s.tasks]
    exact List.perm_append_comm
  · have := hinv.idsNodup; rw [List.map_append] at this
    exact (List.nodup_append.mp this).2.1

/-- **C03 (at most once).** No task is started twice, and only accepted tasks are started. -/
theorem task_started_at_most_once {n : Nat} {s : State} (h : Reachable anyUse n s) :
    s.started.Nodup ∧ ∀ t ∈ s.started, t ∈ s.pushed := by
  have hinv := Inv.of_reachable h
  have hnd : s.pushed.Nodup := nodup_of_map _ (task_in_exactly_one_place h).2
  have := hinv.pushedPerm.nodup_iff.mp hnd
  refine ⟨(List.nodup_append.mp this).1, fun t ht => ?_⟩
  exact hinv.pushedPerm.mem_iff.mpr (by simp [ht])

/-- **C03 (counters).** `num_queued_nonexclusive_tasks` and `numActiveThreads()` are exact. -/
theorem counters_exact {n : Nat} {s : State} (h : Reachable anyUse n s) :
    s.numNonExclusive = (s.tasks.filter (fun t => t.group = nonExclusive)).length ∧
    s.active = (s.workers.filter (fun w => match w with | .running _ => true | _ => false)).length := by
  have hinv := Inv.of_reachable h
  constructor
  · rw [hinv.nonExcl, List.countP_eq_length_filter]; congr 1
  · rw [hinv.activeEq]
    generalize s.workers = ws
    induction ws with
    | nil => rfl
    | cons w ws ih => cases w <;> simp [runningOf] at ih ⊢ <;> exact ih

/-- **C03 (no fault).** No step of the pool in any reachable state fails a CHECK or dereferences the
end iterator of the guard map. -/
theorem pool_never_faults {n : Nat} {s : State} (h : Reachable anyUse n s) (a : Action)
    {o : Outcome State} (hs : step s a = some o) : ∃ s', o = .ok s' := by
  have hinv := Inv.of_reachable h
  cases a <;> simp only [step] at hs
  case work i =>
    split at hs
    · obtain ⟨s', hs'⟩ := workBody_ok i hinv
      rw [hs'] at hs; simp at hs; exact ⟨_, hs.symm⟩
    · simp at hs
  case finish i =>
    split at hs
    · rename_i t hi
      rw [finishBody_eq hinv hi] at hs; simp at hs; exact ⟨_, hs.symm⟩
    · simp at hs
  all_goals (repeat' split at hs) <;>
    (first
      | (simp at hs; done)
      | (simp at hs; exact ⟨_, hs.symm⟩))

/-- Non-vacuity: one task waits, two execute, one has finished. -/
example : ∃ s, Reachable anyUse 2 s ∧ s.tasks = [⟨5, 1⟩] ∧ s.active = 2 ∧ s.finished = [⟨6, 2⟩] ∧
    s.pushed.length = 4 := by
  refine ⟨_, reachable_run (as := [.enqCheck 5, .enqPush 0, .enqCheck 5, .enqPush 0, .enqCheck 6,
    .enqPush 0, .enqCheck nonExclusive, .enqPush 0, .work 1, .work 0, .finish 0, .work 0])
    (fun _ _ => trivial) .init rfl, rfl, rfl, rfl, rfl⟩

/-! ## C04 -/

/-- **C04 (decision).** A worker goes to sleep only if no queued task may start. -/
theorem worker_sleeps_only_if_nothing_may_start {n : Nat} {s s' : State}
    (h : Reachable anyUse n s) {i : Nat} (hs : step s (.work i) = some (.ok s'))
    (hi : s'.workers[i]? = some .asleep) : ∀ t ∈ s.tasks, ¬ MayStart s t := by
  have hinv := Inv.of_reachable h
  intro t ht hm
  simp only [step] at hs
  split at hs
  · rename_i hready
    cases hf : s.tasks.find? (runnable s.guards) with
    | none => exact runnable_find_none hf ⟨t, ht, (mayStart_iff hinv ht).mp hm⟩
    | some u =>
      rw [workBody_some hinv hf] at hs; simp at hs; subst hs
      have hlt : i < s.workers.length := by
        rw [List.getElem?_eq_some_iff] at hready; exact hready.1
      simp [hlt] at hi
  · simp at hs

/-- **C04 (decision).** A worker that finds startable work takes the one that was queued first. -/
theorem worker_takes_first_startable {n : Nat} {s s' : State}
    (h : Reachable anyUse n s) {i : Nat} (hs : step s (.work i) = some (.ok s'))
    {t : Task} (hi : ExecutingOn s' i t) :
    ∃ before after, s.tasks = before ++ t :: after ∧ MayStart s t ∧
      (∀ u ∈ before, ¬ MayStart s u) ∧ s'.tasks = before ++ after := by
  have hinv := Inv.of_reachable h
  unfold ExecutingOn at hi
  simp only [step] at hs
  split at hs
  · rename_i hready
    have hlt : i < s.workers.length := by
      rw [List.getElem?_eq_some_iff] at hready; exact hready.1
    cases hf : s.tasks.find? (runnable s.guards) with
    | none =>
      rw [workBody_none hinv hf] at hs; simp at hs; subst hs
      simp [hlt] at hi
      split at hi <;> simp at hi
    | some u =>
      rw [workBody_some hinv hf] at hs; simp at hs; subst hs
      simp [hlt] at hi
      subst hi
      obtain ⟨as, bs, h1, h2, h4, h3⟩ := find_split hf
      have htm : u ∈ s.tasks := by rw [h1]; simp
      refine ⟨as, bs, h1, (mayStart_iff hinv htm).mpr h3, ?_, by simpa using h2⟩
      intro v hv hm
      have hvm : v ∈ s.tasks := by rw [h1]; simp [hv]
      have := (mayStart_iff hinv hvm).mp hm
      rw [h4 v hv] at this; simp at this
  · simp at hs

/-- Non-vacuity of both decisions: worker 0 is busy with group 5 and only group 5 is queued, so
worker 1 sleeps. -/
example : ∃ s s', Reachable anyUse 2 s ∧ step s (.work 1) = some (.ok s') ∧
    s'.workers[1]? = some .asleep ∧ s.tasks = [⟨5, 1⟩] := by
  refine ⟨_, _, reachable_run (as := [.enqCheck 5, .enqPush 0, .enqCheck 5, .enqPush 0, .work 0])
    (fun _ _ => trivial) .init rfl, rfl, rfl, rfl⟩

/-- **C04 is violated by the code.** Workers and `waitForEmptyQueue` callers sleep on the same
condition variable, and `enqueue` wakes only one sleeper. With one worker asleep, a task pushed, and a
`waitForEmptyQueue` caller that went to sleep between the push and the `notify_one`, the notification
may wake that caller; it sees the non-empty queue and sleeps again. Then a task that may start is
queued, the only worker sleeps, no notification is pending, and nothing moves any more. -/
theorem runnable_task_stranded_refuted :
    ∃ s, Reachable anyUse 1 s ∧ (∃ t ∈ s.tasks, MayStart s t) ∧
      (∀ w ∈ s.workers, w = .asleep) ∧ s.toNotify = 0 ∧ s.stop = false ∧ Quiescent s := by
  refine ⟨_, reachable_run (as := [.work 0, .enqCheck 5, .enqPush 0, .waitCall, .waitCheck,
    .enqNotify .waiter, .waitCheck]) (fun _ _ => trivial) .init rfl, ?_, ?_, rfl, rfl, ?_⟩
  · refine ⟨⟨5, 0⟩, by decide, Or.inr ?_⟩
    intro u hu
    rw [executing_iff] at hu
    exact absurd hu (by simp [runningOf, pushBody, init])
  · decide
  · intro a ha
    cases a <;> simp only [Internal] at ha <;>
      simp [step, pushBody, init]
    · rename_i i; cases i <;> simp
    · rename_i i; cases i <;> simp

/-- Measure that every internal step decreases. -/
def pending (s : State) : Nat × Nat × Nat :=
  (3 * s.checked.length + 2 * s.tasks.length + (runningOf s.workers).length +
    (match s.dtor with | .notCalled => 3 | .stopSet => 2 | .joining => 1 | .joined => 0),
   s.toNotify,
   s.workers.countP (· == .ready) + s.waitersReady)

theorem countP_set_lt {ws : List WorkerPc} {i : Nat} {w : WorkerPc}
    (hi : ws[i]? = some .ready) (hw : w ≠ .ready) :
    (ws.set i w).countP (· == .ready) < ws.countP (· == .ready) := by
  obtain ⟨l1, l2, h1, h2⟩ := split_at hi
  rw [h2, h1]
  simp [List.countP_append, hw]

theorem internal_decreases {s s' : State} {a : Action} (h : Inv s) (ha : Internal a)
    (hs : step s a = some (.ok s')) :
    Prod.Lex (· < ·) (Prod.Lex (· < ·) (· < ·)) (pending s') (pending s) := by
  cases a <;> simp only [Internal] at ha <;> simp only [step] at hs
  case work i =>
    split at hs
    · rename_i hi
      cases ht : s.tasks.find? (runnable s.guards) with
      | none =>
        rw [workBody_none h ht] at hs; simp at hs; subst hs
        unfold pending
        simp only
        rw [running_same hi rfl (by split <;> rfl)]
        apply Prod.Lex.right; apply Prod.Lex.right
        have := countP_set_lt (w := if s.stop = true ∧ s.tasks = [] then WorkerPc.exited else .asleep)
          hi (by split <;> simp)
        omega
      | some t =>
        rw [workBody_some h ht] at hs; simp at hs; subst hs
        unfold pending
        apply Prod.Lex.left
        simp only
        obtain ⟨as, bs, h1, h2, _⟩ := find_split ht
        obtain ⟨r1, r2, e1, e2⟩ := running_start hi rfl (t := t)
        rw [h2, h1, e1, e2]
        simp
        omega
    · simp at hs
  case finish i =>
    split at hs
    · rename_i t hi
      rw [finishBody_eq h hi] at hs; simp at hs; subst hs
      unfold pending
      apply Prod.Lex.left
      obtain ⟨r1, r2, e1, e2⟩ := running_stop hi rfl (t := t) (w := .ready)
      simp only [notifyAll, runningOf_wake, e1, e2, List.length_append, List.length_cons]
      omega
    · simp at hs
  case enqPush i =>
    split at hs
    · rename_i t hi
      simp at hs; subst hs
      unfold pending
      apply Prod.Lex.left
      have hlt : i < s.checked.length := by
        rw [List.getElem?_eq_some_iff] at hi; exact hi.1
      simp [pushBody, List.length_eraseIdx, hlt]
      omega
    · simp at hs
  case enqNotify target =>
    split at hs
    · simp at hs
    · rename_i hne
      cases target <;> simp only at hs
      case worker i =>
        split at hs
        · rename_i hi
          simp at hs; subst hs
          unfold pending
          simp only
          rw [running_same hi rfl rfl]
          apply Prod.Lex.right; apply Prod.Lex.left; omega
        · simp at hs
      case waiter =>
        split at hs
        · simp at hs; subst hs
          unfold pending
          apply Prod.Lex.right; apply Prod.Lex.left; simp only; omega
        · simp at hs
      case nobody =>
        split at hs
        · simp at hs; subst hs
          unfold pending
          apply Prod.Lex.right; apply Prod.Lex.left; simp only; omega
        · simp at hs
  case waitCheck =>
    split at hs
    · simp at hs
    · split at hs <;> (simp at hs; subst hs; unfold pending) <;>
        (apply Prod.Lex.right; apply Prod.Lex.right; simp only; omega)
  case dtorNotify =>
    split at hs
    · rename_i hd
      simp at hs; subst hs
      unfold pending
      apply Prod.Lex.left
      simp [notifyAll, runningOf_wake, hd]
    · simp at hs
  case dtorJoin =>
    split at hs
    · rename_i hd
      simp at hs; subst hs
      unfold pending
      apply Prod.Lex.left
      simp [hd.1]
    · simp at hs

/-- **C04/C05 (termination).** From any reachable state the internal steps cannot go on forever:
whatever the scheduler does, after finitely many of them the system is quiescent. -/
theorem internal_steps_terminate (n : Nat) :
    WellFounded (fun s' s : State => Reachable anyUse n s ∧
      ∃ a, Internal a ∧ step s a = some (.ok s')) := by
  refine Subrelation.wf (r := InvImage (Prod.Lex (· < ·) (Prod.Lex (· < ·) (· < ·))) pending) ?_
    (InvImage.wf _ (Prod.lex Nat.lt_wfRel (Prod.lex Nat.lt_wfRel Nat.lt_wfRel)).wf)
  rintro s' s ⟨hr, a, ha, hs⟩
  exact internal_decreases (Inv.of_reachable hr) ha hs

/-- What quiescence means for the threads. -/
theorem quiescent_threads {n : Nat} {s : State} (h : Reachable anyUse n s)
    (hq : Quiescent s) : s.checked = [] ∧ s.toNotify = 0 ∧ s.waitersReady = 0 ∧
      ∀ w ∈ s.workers, w = .asleep ∨ w = .exited := by
  have hinv := Inv.of_reachable h
  have hn : s.toNotify = 0 := by
    by_cases hn : s.toNotify = 0
    · exact hn
    · exfalso
      by_cases hw : s.waitersAsleep > 0
      · have := hq (.enqNotify .waiter) trivial
        simp [step, hn, hw] at this
      · by_cases ha : WorkerPc.asleep ∈ s.workers
        · obtain ⟨i, hi⟩ := List.mem_iff_getElem?.mp ha
          have := hq (.enqNotify (.worker i)) trivial
          simp [step, hn, hi] at this
        · have := hq (.enqNotify .nobody) trivial
          simp [step, hn, ha] at this
          omega
  refine ⟨?_, hn, ?_, ?_⟩
  · cases hc : s.checked with
    | nil => rfl
    | cons t ts =>
      have := hq (.enqPush 0) trivial
      simp [step, hc] at this
  · by_cases hw : s.waitersReady = 0
    · exact hw
    · have := hq .waitCheck trivial
      simp only [step, hw, if_false] at this
      split at this <;> simp at this
  · intro w hw
    obtain ⟨i, hi⟩ := List.mem_iff_getElem?.mp hw
    cases w with
    | asleep => exact Or.inl rfl
    | exited => exact Or.inr rfl
    | ready =>
      have := hq (.work i) trivial
      simp [step, hi] at this
    | running t =>
      have := hq (.finish i) trivial
      simp [step, hi] at this

theorem Reachable.mono {allow allow' : State → Action → Prop} (hall : ∀ s a, allow s a → allow' s a)
    {n : Nat} {s : State} (h : Reachable allow n s) : Reachable allow' n s := by
  induction h with
  | init => exact .init
  | step _ ha hs ih => exact .step ih (hall _ _ ha) hs

/-- **C04 (partial).** If no enqueue call overlaps a `waitForEmptyQueue` call and `stop()` is not called
during an enqueue, then whenever a queued task may start, some worker is awake or a notification is
still to be sent. Missing for the full property: overlapping `waitForEmptyQueue` and `enqueue`
calls, for which it is false (`runnable_task_stranded_refuted`). -/
theorem runnable_task_not_stranded_partial {n : Nat} (hn : 0 < n) {s : State}
    (h : Reachable sequentialClient n s) (hr : ∃ t ∈ s.tasks, MayStart s t) :
    (∃ w ∈ s.workers, w = .ready ∨ ∃ t, w = .running t) ∨ 0 < s.toNotify := by
  have hinv := Inv.of_reachable h
  obtain ⟨t, ht, hm⟩ := hr
  rcases (wakeInv_of_reachable hn h).awake ⟨t, ht, (mayStart_iff hinv ht).mp hm⟩ with
    ⟨w, hw, h1, h2⟩ | hp
  · left; refine ⟨w, hw, ?_⟩
    cases w <;> simp at *
  · exact Or.inr hp

/-- **C04 (partial, outcome).** Under the same usage, when the system has come to rest (which it always
does, `internal_steps_terminate`) every accepted task has finished and no `waitForEmptyQueue` call is
still blocked. -/
theorem all_tasks_done_at_rest_partial {n : Nat} (hn : 0 < n) {s : State}
    (h : Reachable sequentialClient n s) (hq : Quiescent s) :
    s.tasks = [] ∧ s.pushed.Perm s.finished ∧ s.waitersReady = 0 ∧ s.waitersAsleep = 0 := by
  have hany : Reachable anyUse n s := h.mono (fun _ _ _ => trivial)
  obtain ⟨_, hnot, hw, hworkers⟩ := quiescent_threads hany hq
  have hrun : runningOf s.workers = [] := by
    cases hr : runningOf s.workers with
    | nil => rfl
    | cons t ts =>
      have : t ∈ runningOf s.workers := by rw [hr]; simp
      rcases hworkers _ (mem_runningOf.mp this) with h | h <;> simp at h
  have htasks : s.tasks = [] := by
    cases ht : s.tasks with
    | nil => rfl
    | cons t ts =>
      exfalso
      have hm : MayStart s t := by
        right; intro u hu; rw [executing_iff, hrun] at hu; simp at hu
      rcases runnable_task_not_stranded_partial hn h ⟨t, by rw [ht]; simp, hm⟩ with
        ⟨w, hw, hww⟩ | hp
      · rcases hworkers w hw with h1 | h1 <;> subst h1 <;> simp at hww
      · omega
  refine ⟨htasks, ?_, hw, ?_⟩
  · have := (task_in_exactly_one_place hany).1
    rw [htasks, show s.workers.filterMap WorkerPc.task? = [] from hrun] at this
    simpa using this
  · have := waitInv_of_reachable h
    unfold WaitInv at this
    rw [hrun, htasks] at this
    simp at this
    exact this

/-- Non-vacuity: a sequential client enqueues two tasks of one group, waits, and the system comes to
rest with both done. -/
example : ∃ s, Reachable sequentialClient 1 s ∧ Quiescent s ∧ s.finished = [⟨5, 0⟩, ⟨5, 1⟩] := by
  have chain : ∀ {as : List Action} {s s' : State},
      (∀ a ∈ as, a ≠ .stopCall ∧ a ≠ .waitCall) → s.waitersReady = 0 → s.waitersAsleep = 0 →
      Reachable sequentialClient 1 s → run s as = some s' →
      (∀ a ∈ as, a ≠ .spuriousWaiter) → Reachable sequentialClient 1 s' := by
    intro as
    induction as with
    | nil => intro s s' _ _ _ h hr _; simp [run] at hr; subst hr; exact h
    | cons a as ih =>
      intro s s' hall h1 h2 h hr hsp
      simp only [run] at hr
      split at hr
      · rename_i s1 hs
        have hwr : s1.waitersReady = 0 ∧ s1.waitersAsleep = 0 := by
          have hinv := Inv.of_reachable h
          have ha := hall a (by simp)
          have hb := hsp a (by simp)
          cases a <;> simp only [step] at hs
          case work i =>
            split at hs
            · cases ht : s.tasks.find? (runnable s.guards) with
              | none => rw [workBody_none hinv ht] at hs; simp at hs; subst hs; exact ⟨h1, h2⟩
              | some t => rw [workBody_some hinv ht] at hs; simp at hs; subst hs; exact ⟨h1, h2⟩
            · simp at hs
          case finish i =>
            split at hs
            · rename_i t hi
              rw [finishBody_eq hinv hi] at hs; simp at hs; subst hs
              simp [notifyAll, h1, h2]
            · simp at hs
          all_goals (repeat' split at hs) <;>
            (first
              | (simp at hs; done)
              | (exact absurd rfl ha.2)
              | (exact absurd rfl hb)
              | omega
              | (simp at hs; subst hs; simp [pushBody, notifyAll, h1, h2]; done))
        refine ih (fun b hb => hall b (by simp [hb])) hwr.1 hwr.2 (.step h ?_ hs) hr
          (fun b hb => hsp b (by simp [hb]))
        have ha := hall a (by simp)
        exact ⟨fun e => absurd e ha.1, fun e => absurd e ha.2, fun _ _ => ⟨h1, h2⟩⟩
      · simp at hr
  refine ⟨_, chain (as := [.work 0, .enqCheck 5, .enqPush 0, .enqCheck 5, .enqPush 0,
    .enqNotify (.worker 0), .work 0, .enqNotify .nobody, .finish 0, .work 0, .finish 0, .work 0])
    (by simp) rfl rfl .init rfl (by simp), ?_, rfl⟩
  intro a ha
  cases a <;> simp only [Internal] at ha <;> simp [step, pushBody, init, notifyAll, wake]
  · rename_i i; cases i <;> simp
  · rename_i i; cases i <;> simp

/-! ## C05 -/

/-- **C05 is violated by the code.** The test of `stop_` in `enqueueOrdered` is made without the mutex.
A task whose enqueue call passed the test before `stop()` but pushes after the worker has already
exited is accepted (the caller gets a valid future) and never executed; the destructor returns. -/
theorem stop_drains_refuted :
    ∃ s, Reachable anyUse 1 s ∧ s.dtor = .joined ∧ (∃ t ∈ s.pushed, t ∉ s.finished) := by
  refine ⟨_, reachable_run (as := [.enqCheck 5, .stopCall, .work 0, .enqPush 0, .enqNotify .nobody,
    .dtorStop, .dtorNotify, .dtorJoin]) (fun _ _ => trivial) .init rfl, rfl, ⟨5, 0⟩, ?_, ?_⟩
  · simp [pushBody, notifyAll, init]
  · simp [pushBody, notifyAll, init]

/-- **C05 (partial).** If `stop()` is not called while an enqueue call is in progress, then once the
destructor's joins have returned every task ever accepted has been executed. Missing for the full
property: the race with `stop()`, for which it is false (`stop_drains_refuted`). -/
theorem shutdown_drains_partial {n : Nat} (hn : 0 < n) {s : State}
    (h : Reachable cleanStop n s) (hd : s.dtor = .joined ∨ ∀ w ∈ s.workers, w = .exited) :
    s.tasks = [] ∧ s.pushed.Perm s.finished := by
  have hall : ∀ w ∈ s.workers, w = .exited := by
    rcases hd with hd | hd
    · clear hn
      induction h with
      | init => simp [init] at hd
      | @step s s' a hr ha hs ih =>
        have hinv := Inv.of_reachable hr
        cases a <;> simp only [step] at hs
        case dtorJoin =>
          split at hs
          · rename_i hd2; simp at hs; subst hs; exact hd2.2
          · simp at hs
        case work i =>
          split at hs
          · rename_i hi
            have hdj : s.dtor = .joined := by
              cases ht : s.tasks.find? (runnable s.guards) with
              | none => rw [workBody_none hinv ht] at hs; simp at hs; subst hs; exact hd
              | some t => rw [workBody_some hinv ht] at hs; simp at hs; subst hs; exact hd
            have := ih hdj _ (List.mem_of_getElem? hi)
            simp at this
          · simp at hs
        case finish i =>
          split at hs
          · rename_i t hi
            have hdj : s.dtor = .joined := by
              rw [finishBody_eq hinv hi] at hs; simp at hs; subst hs; exact hd
            have := ih hdj _ (List.mem_of_getElem? hi)
            simp at this
          · simp at hs
        case spuriousWorker i =>
          split at hs
          · rename_i hi
            simp at hs; subst hs
            have := ih hd _ (List.mem_of_getElem? hi)
            simp at this
          · simp at hs
        case enqNotify target =>
          split at hs
          · simp at hs
          · cases target <;> simp only at hs
            case worker i =>
              split at hs
              · rename_i hi
                simp at hs; subst hs
                have := ih hd _ (List.mem_of_getElem? hi)
                simp at this
              · simp at hs
            all_goals
              split at hs
              · simp at hs; subst hs; exact ih hd
              · simp at hs
        all_goals (repeat' split at hs) <;>
          (first
            | (simp at hs; done)
            | (simp at hs; subst hs; exact ih hd)
            | (simp at hs; subst hs; simp at hd))
    · exact hd
  have hc := stopInv_of_reachable (fun _ _ h => h) h
  have hl := workers_length h
  have hne : s.workers ≠ [] := by intro h0; rw [h0] at hl; simp at hl; omega
  obtain ⟨w, hw⟩ := List.exists_mem_of_ne_nil _ hne
  have hwe := hall w hw
  subst hwe
  have htasks := (hc.exited hw).2
  refine ⟨htasks, ?_⟩
  have hrun : runningOf s.workers = [] := by
    cases hr : runningOf s.workers with
    | nil => rfl
    | cons t ts =>
      have : t ∈ runningOf s.workers := by rw [hr]; simp
      have := hall _ (mem_runningOf.mp this); simp at this
  have := (task_in_exactly_one_place (h.mono (fun _ _ _ => trivial))).1
  rw [htasks, show s.workers.filterMap WorkerPc.task? = [] from hrun] at this
  simpa using this

/-- **C05 (destructor returns).** Once the destructor has been entered, the system can only come to
rest with the joins returned: the destructor never hangs (usage as in `shutdown_drains_partial`;
termination is `internal_steps_terminate`). -/
theorem destructor_returns_partial {n : Nat} {s : State}
    (h : Reachable cleanStop n s) (hd : s.dtor ≠ .notCalled) (hq : Quiescent s) :
    s.dtor = .joined := by
  have hany : Reachable anyUse n s := h.mono (fun _ _ _ => trivial)
  have hinv := Inv.of_reachable h
  have hc := stopInv_of_reachable (fun _ _ h => h) h
  obtain ⟨_, _, _, hworkers⟩ := quiescent_threads hany hq
  have hrun : runningOf s.workers = [] := by
    cases hr : runningOf s.workers with
    | nil => rfl
    | cons t ts =>
      have : t ∈ runningOf s.workers := by rw [hr]; simp
      rcases hworkers _ (mem_runningOf.mp this) with h | h <;> simp at h
  cases hdt : s.dtor with
  | notCalled => exact absurd hdt hd
  | joined => rfl
  | stopSet =>
    have := hq .dtorNotify trivial
    simp [step, hdt] at this
  | joining =>
    exfalso
    by_cases hall : ∀ w ∈ s.workers, w = .exited
    · have := hq .dtorJoin trivial
      simp only [step, hdt, true_and] at this
      rw [if_pos hall] at this
      simp at this
    · have : WorkerPc.asleep ∈ s.workers := by
        apply Classical.byContradiction
        intro hna
        apply hall
        intro w hw
        rcases hworkers w hw with h1 | h1
        · subst h1; exact absurd hw hna
        · exact h1
      exact hc.joining (Or.inl hdt) this hrun

/-- Non-vacuity: clean shutdown with a task still queued when the destructor starts. -/
example : ∃ s, Reachable cleanStop 1 s ∧ s.dtor = .joined ∧ s.finished = [⟨5, 0⟩, ⟨5, 1⟩] := by
  have chain : ∀ {as : List Action} {s s' : State}, .stopCall ∉ as →
      Reachable cleanStop 1 s → run s as = some s' → Reachable cleanStop 1 s' := by
    intro as
    induction as with
    | nil => intro s s' _ h hr; simp [run] at hr; subst hr; exact h
    | cons a as ih =>
      intro s s' hna h hr
      simp only [run] at hr
      split at hr
      · rename_i s1 hs
        simp at hna
        exact ih hna.2 (.step h (fun e => absurd e.symm hna.1) hs) hr
      · simp at hr
  exact ⟨_, chain (as := [.work 0, .enqCheck 5, .enqPush 0, .enqCheck 5, .enqPush 0,
    .enqNotify (.worker 0), .work 0, .enqNotify .nobody, .dtorStop, .dtorNotify, .finish 0, .work 0,
    .finish 0, .work 0, .dtorJoin]) (by decide) .init rfl, rfl, rfl⟩

/-- **C05 (waiters).** A `waitForEmptyQueue` caller that is asleep always has something left to wait
for: when the last task finishes it is woken. -/
theorem waiter_asleep_has_work {n : Nat} {s : State} (h : Reachable anyUse n s)
    (hw : 0 < s.waitersAsleep) : (∃ t, Executing s t) ∨ s.tasks ≠ [] := by
  rcases waitInv_of_reachable h hw with h1 | h1
  · obtain ⟨t, ht⟩ := List.exists_mem_of_ne_nil _ h1
    exact Or.inl ⟨t, executing_iff.mpr ht⟩
  · exact Or.inr h1

/-! ## C06 -/

/-- **C06.** When the step in which a `waitForEmptyQueue` caller evaluates its condition lets the call
return (the caller does not go to sleep), no task is waiting and no task is executing. -/
theorem wait_returns_only_when_idle {n : Nat} {s s' : State} (h : Reachable anyUse n s)
    (hs : step s .waitCheck = some (.ok s')) (hret : s'.waitersAsleep = s.waitersAsleep) :
    s.tasks = [] ∧ (∀ t, ¬ Executing s t) ∧ s.pushed.Perm s.finished := by
  have hinv := Inv.of_reachable h
  simp only [step] at hs
  split at hs
  · simp at hs
  · split at hs
    · simp at hs; subst hs; simp at hret
    · rename_i hc
      have htasks : s.tasks = [] := List.length_eq_zero_iff.mp (by omega)
      have hrun : runningOf s.workers = [] :=
        List.length_eq_zero_iff.mp (by rw [← hinv.activeEq]; omega)
      refine ⟨htasks, ?_, ?_⟩
      · intro t ht; rw [executing_iff, hrun] at ht; simp at ht
      · have := (task_in_exactly_one_place h).1
        rw [htasks, show s.workers.filterMap WorkerPc.task? = [] from hrun] at this
        simpa using this

/-- **C06 (converse).** In an idle pool the call does return. -/
theorem wait_returns_when_idle {n : Nat} {s : State} (h : Reachable anyUse n s)
    (hw : 0 < s.waitersReady) (ht : s.tasks = []) (hx : ∀ t, ¬ Executing s t) :
    ∃ s', step s .waitCheck = some (.ok s') ∧ s'.waitersAsleep = s.waitersAsleep ∧
      s'.waitersReady + 1 = s.waitersReady := by
  have hinv := Inv.of_reachable h
  have hrun : runningOf s.workers = [] := by
    cases hr : runningOf s.workers with
    | nil => rfl
    | cons t ts => exact absurd (executing_iff.mpr (by rw [hr]; simp)) (hx t)
  have ha := hinv.activeEq
  rw [hrun] at ha
  simp at ha
  have hne : ¬ s.waitersReady = 0 := by omega
  have hc : ¬ (s.active > 0 ∨ s.tasks.length > 0) := by rw [ha, ht]; simp
  refine ⟨{ s with waitersReady := s.waitersReady - 1 }, ?_, rfl, ?_⟩
  · simp only [step]; rw [if_neg hne, if_neg hc]
  · simp only; omega

/-- Non-vacuity: a caller that slept while the task ran returns after the task finished. -/
example : ∃ s s', Reachable anyUse 1 s ∧ step s .waitCheck = some (.ok s') ∧
    s'.waitersAsleep = s.waitersAsleep ∧ s.finished = [⟨nonExclusive, 0⟩] := by
  refine ⟨_, _, reachable_run (as := [.enqCheck nonExclusive, .enqPush 0, .enqNotify .nobody, .work 0,
    .waitCall, .waitCheck, .finish 0]) (fun _ _ => trivial) .init rfl, rfl, rfl, rfl⟩

end Verif.ThreadPool
