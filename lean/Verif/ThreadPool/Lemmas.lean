import Verif.ThreadPool.Model

/-!
# Helper lemmas for the thread pool model
-/

namespace Verif.ThreadPool

/-- The task a worker executes. -/
def WorkerPc.task? : WorkerPc → Option Task
  | .running t => some t
  | _ => none

/-- The tasks being executed. -/
def runningOf (ws : List WorkerPc) : List Task := ws.filterMap WorkerPc.task?

@[simp] theorem task?_running (t : Task) : (WorkerPc.running t).task? = some t := rfl
@[simp] theorem task?_ready : WorkerPc.ready.task? = none := rfl
@[simp] theorem task?_asleep : WorkerPc.asleep.task? = none := rfl
@[simp] theorem task?_exited : WorkerPc.exited.task? = none := rfl

theorem split_at {α : Type _} {l : List α} {i : Nat} {a : α} (h : l[i]? = some a) :
    ∃ l1 l2, l = l1 ++ a :: l2 ∧ ∀ b, l.set i b = l1 ++ b :: l2 := by
  refine ⟨l.take i, l.drop (i + 1), ?_, ?_⟩
  · have hi : i < l.length := by
      rw [List.getElem?_eq_some_iff] at h; exact h.1
    have ha : l[i] = a := by
      rw [List.getElem?_eq_some_iff] at h; exact h.2
    rw [← ha, List.getElem_cons_drop, List.take_append_drop]
  · intro b
    have hi : i < l.length := by
      rw [List.getElem?_eq_some_iff] at h; exact h.1
    rw [List.set_eq_take_append_cons_drop]
    simp [hi]

theorem runningOf_append (a b : List WorkerPc) :
    runningOf (a ++ b) = runningOf a ++ runningOf b := by
  simp [runningOf]

theorem runningOf_cons_running (t : Task) (b : List WorkerPc) :
    runningOf (.running t :: b) = t :: runningOf b := by simp [runningOf]

theorem runningOf_cons_other (w : WorkerPc) (b : List WorkerPc) (h : w.task? = none) :
    runningOf (w :: b) = runningOf b := by simp [runningOf, h]

theorem runningOf_wake (ws : List WorkerPc) : runningOf (ws.map wake) = runningOf ws := by
  have : WorkerPc.task? ∘ wake = WorkerPc.task? := by
    funext w; cases w <;> rfl
  simp [runningOf, List.filterMap_map, this]

/-- What the scan looks for: a task that may be started. -/
def runnable (gs : Guards) (t : Task) : Bool :=
  t.group == nonExclusive || gs.lookup t.group == some false

theorem scan_eq (gs : Guards) (ts : List Task)
    (h : ∀ t ∈ ts, t.group ≠ nonExclusive → (gs.lookup t.group).isSome) :
    scan ts gs = (ts.find? (runnable gs), ts.eraseP (runnable gs), gs) := by
  induction ts with
  | nil => simp [scan]
  | cons t ts ih =>
    have ih' := ih (fun t' ht' => h t' (List.mem_cons_of_mem _ ht'))
    by_cases hg : t.group = nonExclusive
    · simp [scan, hg, runnable]
    · have hs := h t (List.mem_cons_self) hg
      obtain ⟨b, hb⟩ := Option.isSome_iff_exists.mp hs
      cases b
      · simp [scan, hg, runnable, indexGuard, hb]
      · have hr : runnable gs t = false := by simp [runnable, hg, hb]
        simp [scan, hg, indexGuard, hb, ih', hr]

theorem lookup_mem {gs : Guards} {g : Nat} {b : Bool} (h : gs.lookup g = some b) : (g, b) ∈ gs := by
  induction gs with
  | nil => simp at h
  | cons v gs ih =>
    obtain ⟨k, c⟩ := v
    rw [List.lookup_cons] at h
    by_cases hk : g = k
    · subst hk; simp at h; subst h; simp
    · have : (g == k) = false := by simpa using hk
      rw [this] at h; exact List.mem_cons_of_mem _ (ih h)

theorem lookup_isSome_iff {gs : Guards} {g : Nat} :
    (gs.lookup g).isSome ↔ g ∈ gs.map Prod.fst := by
  induction gs with
  | nil => simp
  | cons v gs ih =>
    obtain ⟨k, c⟩ := v
    rw [List.lookup_cons]
    by_cases hk : g = k
    · subst hk; simp
    · have : (g == k) = false := by simpa using hk
      rw [this]; simp only [ih]; simp [hk]

theorem lookup_append_new {gs : Guards} {g k : Nat} {b : Bool} (hn : gs.lookup g = none) :
    (gs ++ [(g, b)]).lookup k = if k = g then some b else gs.lookup k := by
  induction gs with
  | nil =>
    by_cases hk : k = g
    · subst hk; simp
    · have : (k == g) = false := by simpa using hk
      simp [List.lookup_cons, this, hk]
  | cons v gs ih =>
    obtain ⟨k', c⟩ := v
    rw [List.lookup_cons] at hn
    by_cases hg : g = k'
    · subst hg; simp at hn
    · have hgf : (g == k') = false := by simpa using hg
      rw [hgf] at hn
      have := ih hn
      simp only [List.cons_append, List.lookup_cons, this]
      by_cases hk : k = k'
      · subst hk; simp; intro h; exact absurd h.symm hg
      · have : (k == k') = false := by simpa using hk
        simp [this]

theorem lookup_setGuard {gs : Guards} {g k : Nat} {b : Bool} :
    (setGuard gs g b).lookup k =
      if k = g then (if (gs.lookup g).isSome then some b else none) else gs.lookup k := by
  induction gs with
  | nil => simp [setGuard]
  | cons v gs ih =>
    obtain ⟨k', c⟩ := v
    have ih' : (List.map (fun v => if v.1 = g then (g, b) else v) gs).lookup k = _ := ih
    simp only [setGuard, List.map_cons]
    by_cases hk' : k' = g
    · subst hk'
      simp only [if_true, List.lookup_cons]
      by_cases hk : k = k'
      · subst hk; simp
      · have : (k == k') = false := by simpa using hk
        simp only [this, ih', hk, if_false]
    · simp only [hk', if_false, List.lookup_cons]
      by_cases hk : k = k'
      · subst hk; simp [hk']
      · have h1 : (k == k') = false := by simpa using hk
        have h2 : (g == k') = false := by simpa using fun h : g = k' => hk' h.symm
        simp only [h1, h2, ih']

theorem all_active_lookup {gs : Guards} (h : gs.all (fun v => v.2) = true) (g : Nat) :
    gs.lookup g ≠ some false := by
  intro hl
  have := lookup_mem hl
  rw [List.all_eq_true] at h
  exact absurd (h _ this) (by simp)

/-- The invariant connecting the data structures with the threads and the history. -/
structure Inv (s : State) : Prop where
  noNonExclGuard : s.guards.lookup nonExclusive = none
  guarded : ∀ t ∈ s.tasks, t.group ≠ nonExclusive → (s.guards.lookup t.group).isSome
  guardIff : ∀ g, g ≠ nonExclusive →
    ((runningOf s.workers).filter (fun t => t.group == g)).length
      = if s.guards.lookup g = some true then 1 else 0
  nonExcl : s.numNonExclusive = s.tasks.countP (fun t => t.group == nonExclusive)
  activeEq : s.active = (runningOf s.workers).length
  order : ∀ g, s.started.filter (fun t => t.group == g) ++ s.tasks.filter (fun t => t.group == g)
    = s.pushed.filter (fun t => t.group == g)
  finOrder : ∀ g, g ≠ nonExclusive →
    s.finished.filter (fun t => t.group == g) ++ (runningOf s.workers).filter (fun t => t.group == g)
      = s.started.filter (fun t => t.group == g)
  startedPerm : s.started.Perm (runningOf s.workers ++ s.finished)
  pushedPerm : s.pushed.Perm (s.started ++ s.tasks)
  idsNodup : ((s.checked ++ s.pushed).map Task.id).Nodup
  idsLt : ∀ t ∈ s.checked ++ s.pushed, t.id < s.nextId

theorem runningOf_replicate (n : Nat) : runningOf (List.replicate n .ready) = [] := by
  induction n with
  | zero => rfl
  | succ n ih => rw [List.replicate_succ, runningOf_cons_other _ _ rfl, ih]

theorem inv_init (n : Nat) : Inv (init n) := by
  constructor <;> simp [init, runningOf_replicate]

/-- Under the invariant the selection takes the first runnable task of the queue. -/
theorem select_eq {s : State} (h : Inv s) :
    select s = match s.tasks.find? (runnable s.guards) with
      | some t => (some t, { s with
          tasks := s.tasks.eraseP (runnable s.guards)
          numNonExclusive :=
            if t.group = nonExclusive then decMod (2 ^ 64) s.numNonExclusive
            else s.numNonExclusive })
      | none => (none, s) := by
  unfold select
  by_cases hc : (!(s.guards.all fun v => v.2) || decide (s.numNonExclusive > 0)) = true
  · simp only [hc, if_true]
    rw [scan_eq _ _ h.guarded]
    cases s.tasks.find? (runnable s.guards) <;> simp
  · have hall : (s.guards.all fun v => v.2) = true ∧ s.numNonExclusive = 0 := by
      cases ha : s.guards.all fun v => v.2 <;> simp [ha] at hc ⊢
      omega
    have hnone : s.tasks.find? (runnable s.guards) = none := by
      rw [List.find?_eq_none]
      intro t ht hr
      have hnx := h.nonExcl
      rw [hall.2] at hnx
      have hz := List.countP_eq_zero.mp hnx.symm t ht
      simp only [runnable, Bool.or_eq_true, beq_iff_eq] at hr
      rcases hr with hr | hr
      · simp [hr] at hz
      · exact all_active_lookup hall.1 _ hr
    simp [hnone]
    intro h'; rw [hall.2] at *; simp_all

/-- Splitting the queue at the selected task. -/
theorem find_split {gs : Guards} {ts : List Task} {t : Task}
    (h : ts.find? (runnable gs) = some t) :
    ∃ as bs, ts = as ++ t :: bs ∧ ts.eraseP (runnable gs) = as ++ bs ∧
      (∀ a ∈ as, runnable gs a = false) ∧ runnable gs t = true := by
  rw [List.find?_eq_some_iff_append] at h
  obtain ⟨hr, as, bs, hts, has⟩ := h
  refine ⟨as, bs, hts, ?_, ?_, hr⟩
  · rw [hts, List.eraseP_append_right _ (by intro b hb; simpa using has b hb)]
    simp [hr]
  · intro a ha; simpa using has a ha

/-- The running task list after worker `i`, which was not running, starts `t`. -/
theorem running_start {ws : List WorkerPc} {i : Nat} {w : WorkerPc} {t : Task}
    (hi : ws[i]? = some w) (hw : w.task? = none) :
    ∃ r1 r2, runningOf ws = r1 ++ r2 ∧ runningOf (ws.set i (.running t)) = r1 ++ t :: r2 := by
  obtain ⟨l1, l2, h1, h2⟩ := split_at hi
  refine ⟨runningOf l1, runningOf l2, ?_, ?_⟩
  · rw [h1, runningOf_append, runningOf_cons_other _ _ hw]
  · rw [h2, runningOf_append, runningOf_cons_running]

theorem running_stop {ws : List WorkerPc} {i : Nat} {w : WorkerPc} {t : Task}
    (hi : ws[i]? = some (.running t)) (hw : w.task? = none) :
    ∃ r1 r2, runningOf ws = r1 ++ t :: r2 ∧ runningOf (ws.set i w) = r1 ++ r2 := by
  obtain ⟨l1, l2, h1, h2⟩ := split_at hi
  refine ⟨runningOf l1, runningOf l2, ?_, ?_⟩
  · rw [h1, runningOf_append, runningOf_cons_running]
  · rw [h2, runningOf_append, runningOf_cons_other _ _ hw]

theorem running_same {ws : List WorkerPc} {i : Nat} {w w' : WorkerPc}
    (hi : ws[i]? = some w) (hw : w.task? = none) (hw' : w'.task? = none) :
    runningOf (ws.set i w') = runningOf ws := by
  obtain ⟨l1, l2, h1, h2⟩ := split_at hi
  rw [h2, h1, runningOf_append, runningOf_append, runningOf_cons_other _ _ hw,
    runningOf_cons_other _ _ hw']

/-- Changes that only touch sleeping/ready workers and fields the invariant does not mention. -/
theorem Inv.congr {s s' : State} (h : Inv s)
    (ht : s'.tasks = s.tasks) (hg : s'.guards = s.guards)
    (hn : s'.numNonExclusive = s.numNonExclusive) (ha : s'.active = s.active)
    (hw : runningOf s'.workers = runningOf s.workers) (hc : s'.checked = s.checked)
    (hi : s'.nextId = s.nextId) (hp : s'.pushed = s.pushed) (hs : s'.started = s.started)
    (hf : s'.finished = s.finished) : Inv s' := by
  obtain ⟨h1, h2, h3, h4, h5, h6, h7, h8, h9, h10, h11⟩ := h
  constructor <;> (try rw [ht]) <;> (try rw [hg]) <;> (try rw [hn]) <;> (try rw [ha]) <;>
    (try rw [hw]) <;> (try rw [hc]) <;> (try rw [hi]) <;> (try rw [hp]) <;> (try rw [hs]) <;>
    (try rw [hf]) <;> assumption

end Verif.ThreadPool
