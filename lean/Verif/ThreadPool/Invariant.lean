import Verif.ThreadPool.Lemmas

/-!
# The thread pool invariant is preserved by every step
-/

namespace Verif.ThreadPool

theorem filter_eq_nil_of {as : List Task} {gs : Guards} {t : Task}
    (has : ∀ a ∈ as, runnable gs a = false) (ht : runnable gs t = true) :
    as.filter (fun a => a.group == t.group) = [] := by
  rw [List.filter_eq_nil_iff]
  intro a ha heq
  have h1 := has a ha
  have heq' : a.group = t.group := by simpa using heq
  simp [runnable, heq'] at h1 ht
  rcases ht with ht | ht
  · exact h1.1 ht
  · exact h1.2 ht

theorem guard_of_runnable {gs : Guards} {t : Task} (ht : runnable gs t = true)
    (hx : t.group ≠ nonExclusive) : gs.lookup t.group = some false := by
  simpa [runnable, hx] using ht

/-- The effect of `workBody` when a runnable task exists. -/
theorem workBody_some {s : State} {i : Nat} (h : Inv s) {t : Task}
    (ht : s.tasks.find? (runnable s.guards) = some t) :
    workBody s i = .ok { s with
      tasks := s.tasks.eraseP (runnable s.guards)
      numNonExclusive :=
        if t.group = nonExclusive then decMod (2 ^ 64) s.numNonExclusive else s.numNonExclusive
      guards := if t.group = nonExclusive then s.guards else setGuard s.guards t.group true
      active := s.active + 1
      workers := s.workers.set i (.running t)
      started := s.started ++ [t] } := by
  obtain ⟨as, bs, _, _, _, hr⟩ := find_split ht
  unfold workBody
  rw [select_eq h, ht]
  by_cases hx : t.group = nonExclusive
  · simp [acquireGuard, hx, Outcome.bind]
  · have := guard_of_runnable hr hx
    simp [acquireGuard, hx, this, Outcome.bind]

theorem workBody_none {s : State} {i : Nat} (h : Inv s)
    (ht : s.tasks.find? (runnable s.guards) = none) :
    workBody s i = .ok { s with
      workers := s.workers.set i
        (if s.stop = true ∧ s.tasks = [] then WorkerPc.exited else .asleep) } := by
  unfold workBody
  rw [select_eq h, ht]
  by_cases hc : s.stop = true ∧ s.tasks = []
  · simp [hc.1, hc.2]
  · have : ¬ ((s.stop && s.tasks.length == 0) = true) := by
      simp only [Bool.and_eq_true, beq_iff_eq, List.length_eq_zero_iff]; exact hc
    simp only
    rw [if_neg this, if_neg hc]

theorem Inv.work {s s' : State} {i : Nat} (h : Inv s) (hi : s.workers[i]? = some .ready)
    (hs : workBody s i = .ok s') : Inv s' := by
  cases ht : s.tasks.find? (runnable s.guards) with
  | none =>
    rw [workBody_none h ht] at hs
    injection hs with hs; subst hs
    refine h.congr rfl rfl rfl rfl ?_ rfl rfl rfl rfl rfl
    refine running_same hi rfl ?_
    split <;> rfl
  | some t =>
    rw [workBody_some h ht] at hs
    injection hs with hs
    obtain ⟨as, bs, hsplit, herase, has, hr⟩ := find_split ht
    obtain ⟨r1, r2, hr1, hr2⟩ := running_start (t := t) hi rfl
    have hfil := filter_eq_nil_of has hr
    rw [herase] at hs
    subst hs
    have hother : ∀ g, g ≠ t.group → (t :: bs).filter (fun a => a.group == g)
        = bs.filter (fun a => a.group == g) := by
      intro g hg
      rw [List.filter_cons_of_neg]
      simpa using fun h => hg h.symm
    constructor
    · -- noNonExclGuard
      show (if t.group = nonExclusive then s.guards else setGuard s.guards t.group true).lookup
        nonExclusive = none
      by_cases hx : t.group = nonExclusive
      · simp [hx, h.noNonExclGuard]
      · simp only [hx, if_false, lookup_setGuard]
        rw [if_neg (fun h => hx h.symm)]; exact h.noNonExclGuard
    · -- guarded
      intro a ha hax
      have hma : a ∈ s.tasks := by
        rw [hsplit]; simp at ha ⊢; rcases ha with ha | ha <;> simp [ha]
      have := h.guarded a hma hax
      show (List.lookup a.group
        (if t.group = nonExclusive then s.guards else setGuard s.guards t.group true)).isSome
      by_cases hx : t.group = nonExclusive
      · simp [hx, this]
      · simp only [hx, if_false, lookup_setGuard]
        by_cases hag : a.group = t.group
        · rw [if_pos hag, if_pos (hag ▸ this)]; rfl
        · rw [if_neg hag]; exact this
    · -- guardIff
      intro g hg
      show (List.filter _ (runningOf (s.workers.set i (.running t)))).length = _
      have h0 := h.guardIff g hg
      rw [hr1] at h0
      rw [hr2, List.filter_append]
      show _ = if List.lookup g
        (if t.group = nonExclusive then s.guards else setGuard s.guards t.group true) = some true
        then 1 else 0
      by_cases htg : t.group = g
      · have hx : t.group ≠ nonExclusive := by rw [htg]; exact hg
        have hf := guard_of_runnable hr hx
        rw [← htg] at h0 ⊢
        rw [hf, if_neg (by simp), List.filter_append, List.length_append] at h0
        rw [List.filter_cons_of_pos (by simp), List.length_append, List.length_cons, if_neg hx,
          lookup_setGuard, if_pos rfl, hf]
        simp only [Option.isSome_some, if_true]
        omega
      · rw [List.filter_cons_of_neg (by simpa using htg), ← List.filter_append, h0]
        by_cases hx : t.group = nonExclusive
        · simp [hx]
        · have hgt : ¬ g = t.group := fun h => htg h.symm
          simp only [hx, if_false, lookup_setGuard, hgt]
    · -- nonExcl
      show (if t.group = nonExclusive then decMod (2 ^ 64) s.numNonExclusive else s.numNonExclusive)
        = (as ++ bs).countP _
      have h0 := h.nonExcl
      rw [hsplit, List.countP_append, List.countP_cons] at h0
      rw [List.countP_append]
      by_cases hx : t.group = nonExclusive
      · simp [hx] at h0 ⊢
        unfold decMod
        rw [if_neg (by omega)]; omega
      · simp [hx] at h0 ⊢; omega
    · -- active
      show s.active + 1 = (runningOf (s.workers.set i (.running t))).length
      rw [hr2, h.activeEq, hr1]; simp; omega
    · -- order
      intro g
      show (s.started ++ [t]).filter _ ++ (as ++ bs).filter _ = s.pushed.filter _
      rw [← h.order g, hsplit]
      simp only [List.filter_append]
      by_cases htg : t.group = g
      · subst htg; simp [hfil]
      · rw [hother g (fun h => htg h.symm)]
        simp [htg]
    · -- finOrder
      intro g hg
      show s.finished.filter _ ++ (runningOf (s.workers.set i (.running t))).filter _
        = (s.started ++ [t]).filter _
      rw [hr2, List.filter_append, List.filter_append, ← h.finOrder g hg, hr1, List.filter_append]
      by_cases htg : t.group = g
      · have hx : t.group ≠ nonExclusive := by rw [htg]; exact hg
        have hf := guard_of_runnable hr hx
        have h0 := h.guardIff g hg
        rw [← htg, hf, hr1, List.filter_append, List.length_append] at h0
        simp at h0
        rw [← htg]
        have e1 : r1.filter (fun a => a.group == t.group) = [] := by
          rw [List.filter_eq_nil_iff]; intro a ha; simpa using h0.1 a ha
        have e2 : r2.filter (fun a => a.group == t.group) = [] := by
          rw [List.filter_eq_nil_iff]; intro a ha; simpa using h0.2 a ha
        simp [e1, e2]
      · simp [htg]
    · -- startedPerm
      show (s.started ++ [t]).Perm (runningOf (s.workers.set i (.running t)) ++ s.finished)
      rw [hr2]
      have h0 := h.startedPerm
      rw [hr1] at h0
      have : (s.started ++ [t]).Perm (t :: (r1 ++ r2 ++ s.finished)) :=
        (List.perm_append_singleton t s.started).trans (h0.cons t)
      refine this.trans ?_
      have : (t :: (r1 ++ r2)).Perm (r1 ++ t :: r2) := List.perm_middle.symm
      exact this.append_right s.finished
    · -- pushedPerm
      show s.pushed.Perm (s.started ++ [t] ++ (as ++ bs))
      refine h.pushedPerm.trans ?_
      rw [hsplit, List.append_assoc]
      exact List.Perm.append_left _ (by simp [List.perm_middle])
    · exact h.idsNodup
    · exact h.idsLt

theorem workBody_ok {s : State} (i : Nat) (h : Inv s) : ∃ s', workBody s i = .ok s' := by
  cases ht : s.tasks.find? (runnable s.guards) with
  | none => exact ⟨_, workBody_none h ht⟩
  | some t => exact ⟨_, workBody_some h ht⟩

theorem guard_active_of_running {s : State} {i : Nat} {t : Task} (h : Inv s)
    (hi : s.workers[i]? = some (.running t)) (hx : t.group ≠ nonExclusive) :
    s.guards.lookup t.group = some true := by
  have h0 := h.guardIff t.group hx
  obtain ⟨r1, r2, hr1, _⟩ := running_stop (w := .ready) hi rfl
  rw [hr1, List.filter_append] at h0
  by_cases hc : s.guards.lookup t.group = some true
  · exact hc
  · simp [hc] at h0

theorem finishBody_eq {s : State} {i : Nat} {t : Task} (h : Inv s)
    (hi : s.workers[i]? = some (.running t)) :
    finishBody s i t = .ok (notifyAll { s with
      guards := if t.group = nonExclusive then s.guards else setGuard s.guards t.group false
      active := decMod (2 ^ 32) s.active
      workers := s.workers.set i .ready
      finished := s.finished ++ [t] }) := by
  unfold finishBody
  by_cases hx : t.group = nonExclusive
  · simp [releaseGuard, hx, Outcome.bind]
  · have := guard_active_of_running h hi hx
    simp [releaseGuard, hx, this, Outcome.bind]

theorem Inv.finish {s s' : State} {i : Nat} {t : Task} (h : Inv s)
    (hi : s.workers[i]? = some (.running t)) (hs : finishBody s i t = .ok s') : Inv s' := by
  rw [finishBody_eq h hi] at hs
  injection hs with hs
  subst hs
  obtain ⟨r1, r2, hr1, hr2⟩ := running_stop (w := .ready) hi rfl
  have hrun : runningOf ((s.workers.set i .ready).map wake) = r1 ++ r2 := by
    rw [runningOf_wake, hr2]
  have hpos : s.active = r1.length + r2.length + 1 := by
    rw [h.activeEq, hr1]; simp; omega
  have hlook : ∀ g, g ≠ t.group → List.lookup g
      (if t.group = nonExclusive then s.guards else setGuard s.guards t.group false)
      = s.guards.lookup g := by
    intro g hg
    by_cases hx : t.group = nonExclusive
    · simp [hx]
    · simp only [hx, if_false, lookup_setGuard]; rw [if_neg hg]
  constructor
  · show List.lookup nonExclusive
      (if t.group = nonExclusive then s.guards else setGuard s.guards t.group false) = none
    by_cases hx : t.group = nonExclusive
    · simp [hx, h.noNonExclGuard]
    · rw [hlook _ (fun h => hx h.symm)]; exact h.noNonExclGuard
  · intro a ha hax
    have := h.guarded a ha hax
    show (List.lookup a.group
        (if t.group = nonExclusive then s.guards else setGuard s.guards t.group false)).isSome
    by_cases hag : a.group = t.group
    · have hx : t.group ≠ nonExclusive := by rw [← hag]; exact hax
      simp only [hx, if_false, lookup_setGuard]
      rw [if_pos hag, if_pos (hag ▸ this)]; rfl
    · rw [hlook _ hag]; exact this
  · intro g hg
    show ((runningOf ((s.workers.set i .ready).map wake)).filter _).length
      = if List.lookup g (if t.group = nonExclusive then s.guards else setGuard s.guards t.group false)
          = some true then 1 else 0
    rw [hrun]
    have h0 := h.guardIff g hg
    rw [hr1, List.filter_append] at h0
    by_cases htg : t.group = g
    · have hx : t.group ≠ nonExclusive := by rw [htg]; exact hg
      have hact := guard_active_of_running h hi hx
      rw [← htg] at h0 ⊢
      rw [hact, if_pos rfl, List.filter_cons_of_pos (by simp), List.length_append,
        List.length_cons] at h0
      simp only [hx, if_false, lookup_setGuard, if_true, hact]
      rw [List.filter_append, List.length_append]
      simp only [Option.isSome_some, if_true]
      rw [if_neg (by simp)]
      omega
    · rw [hlook g (fun h => htg h.symm), ← h0]
      rw [List.filter_cons_of_neg (by simpa using htg), ← List.filter_append]
  · exact h.nonExcl
  · show decMod (2 ^ 32) s.active = (runningOf ((s.workers.set i .ready).map wake)).length
    rw [hrun]; unfold decMod; rw [if_neg (by omega)]; simp; omega
  · exact h.order
  · intro g hg
    show (s.finished ++ [t]).filter _ ++ (runningOf ((s.workers.set i .ready).map wake)).filter _
      = s.started.filter _
    rw [hrun, ← h.finOrder g hg, hr1]
    simp only [List.filter_append]
    by_cases htg : t.group = g
    · have hx : t.group ≠ nonExclusive := by rw [htg]; exact hg
      have hact := guard_active_of_running h hi hx
      have h0 := h.guardIff g hg
      rw [← htg, hact, hr1, List.filter_append, List.length_append, if_pos rfl,
        List.filter_cons_of_pos (by simp), List.length_cons] at h0
      have e1 : r1.filter (fun a => a.group == g) = [] := by
        rw [← List.length_eq_zero_iff, ← htg]; omega
      simp [htg, e1]
    · simp [htg]
  · show s.started.Perm (runningOf ((s.workers.set i .ready).map wake) ++ (s.finished ++ [t]))
    rw [hrun]
    refine h.startedPerm.trans ?_
    rw [hr1]
    have e1 : (r1 ++ t :: r2 ++ s.finished).Perm (t :: (r1 ++ r2 ++ s.finished)) := by
      simp [List.perm_middle]
    refine e1.trans ?_
    rw [← List.append_assoc]
    exact (List.perm_append_singleton t _).symm
  · exact h.pushedPerm
  · exact h.idsNodup
  · exact h.idsLt

theorem Inv.push {s : State} {i : Nat} {t : Task} (h : Inv s) (hi : s.checked[i]? = some t) :
    Inv (pushBody s i t) := by
  have hlook : ∀ g, (pushBody s i t).guards.lookup g =
      if g = t.group ∧ t.group ≠ nonExclusive ∧ s.guards.lookup t.group = none then some false
      else s.guards.lookup g := by
    intro g
    show (if t.group = nonExclusive then s.guards
      else if (s.guards.lookup t.group).isNone then s.guards ++ [(t.group, false)]
      else s.guards).lookup g = _
    by_cases hx : t.group = nonExclusive
    · simp [hx]
    · simp only [hx, if_false]
      by_cases hn : s.guards.lookup t.group = none
      · rw [if_pos (by simp [hn]), lookup_append_new hn]
        by_cases hg : g = t.group <;> simp [hg, hx, hn]
      · rw [if_neg (by simpa using hn), if_neg (by simp [hn])]
  have hchk : s.checked.Perm (t :: s.checked.eraseIdx i) := by
    obtain ⟨l1, l2, h1, h2⟩ := split_at hi
    have hlen : i < s.checked.length := (List.getElem?_eq_some_iff.mp hi).1
    rw [List.eraseIdx_eq_take_drop_succ]
    have : s.checked = s.checked.take i ++ t :: s.checked.drop (i + 1) := by
      have ht : s.checked[i] = t := (List.getElem?_eq_some_iff.mp hi).2
      rw [← ht, List.getElem_cons_drop, List.take_append_drop]
    calc s.checked = s.checked.take i ++ t :: s.checked.drop (i + 1) := this
      _ |>.Perm _ := List.perm_middle
  constructor
  · rw [hlook]
    rw [if_neg (by rintro ⟨h1, h2, _⟩; exact h2 h1.symm)]; exact h.noNonExclGuard
  · intro a ha hax
    rw [hlook]
    by_cases hc : a.group = t.group ∧ t.group ≠ nonExclusive ∧ s.guards.lookup t.group = none
    · simp [hc]
    · rw [if_neg hc]
      have ha' : a ∈ s.tasks ++ [t] := ha
      rcases List.mem_append.mp ha' with ha' | ha'
      · exact h.guarded a ha' hax
      · simp at ha'; subst ha'
        exact Option.isSome_iff_ne_none.mpr (fun hn => hc ⟨rfl, hax, hn⟩)
  · intro g hg
    rw [hlook]
    show ((runningOf s.workers).filter _).length = _
    rw [h.guardIff g hg]
    by_cases hc : g = t.group ∧ t.group ≠ nonExclusive ∧ s.guards.lookup t.group = none
    · rw [if_pos hc, hc.1, hc.2.2]; simp
    · rw [if_neg hc]
  · show (if t.group = nonExclusive then s.numNonExclusive + 1 else s.numNonExclusive)
      = (s.tasks ++ [t]).countP _
    rw [List.countP_append, h.nonExcl]
    by_cases hx : t.group = nonExclusive <;> simp [hx]
  · exact h.activeEq
  · intro g
    show s.started.filter _ ++ (s.tasks ++ [t]).filter _ = (s.pushed ++ [t]).filter _
    rw [List.filter_append, List.filter_append, ← h.order g, List.append_assoc]
  · exact h.finOrder
  · exact h.startedPerm
  · show (s.pushed ++ [t]).Perm (s.started ++ (s.tasks ++ [t]))
    rw [← List.append_assoc]
    exact h.pushedPerm.append_right _
  · have hp : (s.checked ++ s.pushed).Perm (s.checked.eraseIdx i ++ (s.pushed ++ [t])) := by
      refine (hchk.append_right _).trans ?_
      rw [← List.append_assoc]
      exact (List.perm_append_singleton t _).symm
    exact (hp.map Task.id).nodup_iff.mp h.idsNodup
  · intro a ha
    have hp : (s.checked ++ s.pushed).Perm (s.checked.eraseIdx i ++ (s.pushed ++ [t])) := by
      refine (hchk.append_right _).trans ?_
      rw [← List.append_assoc]
      exact (List.perm_append_singleton t _).symm
    exact h.idsLt a (hp.mem_iff.mpr ha)

theorem Inv.step {s s' : State} {a : Action} (h : Inv s) (hs : step s a = some (.ok s')) :
    Inv s' := by
  cases a with
  | enqCheck g =>
    simp only [ThreadPool.step] at hs
    split at hs
    · split at hs
      · simp at hs; subst hs
        obtain ⟨h1, h2, h3, h4, h5, h6, h7, h8, h9, h10, h11⟩ := h
        exact ⟨h1, h2, h3, h4, h5, h6, h7, h8, h9, h10, fun t ht => Nat.lt_succ_of_lt (h11 t ht)⟩
      · simp at hs; subst hs
        obtain ⟨h1, h2, h3, h4, h5, h6, h7, h8, h9, h10, h11⟩ := h
        refine ⟨h1, h2, h3, h4, h5, h6, h7, h8, h9, ?_, ?_⟩
        · have hp : (s.checked ++ [(⟨g, s.nextId⟩ : Task)] ++ s.pushed).Perm
              ((⟨g, s.nextId⟩ : Task) :: (s.checked ++ s.pushed)) :=
            ((List.perm_append_singleton _ _).append_right s.pushed)
          refine (hp.map Task.id).nodup_iff.mpr ?_
          rw [List.map_cons, List.nodup_cons]
          refine ⟨?_, h10⟩
          intro hm
          obtain ⟨t, ht, hid⟩ := List.mem_map.mp hm
          have := h11 t ht
          simp only at hid
          omega
        · intro t ht
          simp only [List.mem_append, List.mem_singleton] at ht
          rcases ht with (ht | ht) | ht
          · exact Nat.lt_succ_of_lt (h11 t (by simp [ht]))
          · subst ht; exact Nat.lt_succ_self _
          · exact Nat.lt_succ_of_lt (h11 t (by simp [ht]))
    · simp at hs
  | enqPush i =>
    simp only [ThreadPool.step] at hs
    split at hs
    · rename_i t ht
      simp at hs; subst hs; exact h.push ht
    · simp at hs
  | enqNotify target =>
    simp only [ThreadPool.step] at hs
    split at hs
    · simp at hs
    · cases target with
      | worker i =>
        simp only at hs
        split at hs
        · rename_i hi
          simp at hs; subst hs
          exact h.congr rfl rfl rfl rfl (running_same hi rfl rfl) rfl rfl rfl rfl rfl
        · simp at hs
      | waiter =>
        simp only at hs
        split at hs
        · simp at hs; subst hs
          exact h.congr rfl rfl rfl rfl rfl rfl rfl rfl rfl rfl
        · simp at hs
      | nobody =>
        simp only at hs
        split at hs
        · simp at hs; subst hs
          exact h.congr rfl rfl rfl rfl rfl rfl rfl rfl rfl rfl
        · simp at hs
  | work i =>
    simp only [ThreadPool.step] at hs
    split at hs
    · rename_i hi
      exact h.work hi (by simpa using hs)
    · simp at hs
  | finish i =>
    simp only [ThreadPool.step] at hs
    split at hs
    · rename_i t hi
      exact h.finish hi (by simpa using hs)
    · simp at hs
  | spuriousWorker i =>
    simp only [ThreadPool.step] at hs
    split at hs
    · rename_i hi
      simp at hs; subst hs
      exact h.congr rfl rfl rfl rfl (running_same hi rfl rfl) rfl rfl rfl rfl rfl
    · simp at hs
  | spuriousWaiter =>
    simp only [ThreadPool.step] at hs
    split at hs
    · simp at hs; subst hs; exact h.congr rfl rfl rfl rfl rfl rfl rfl rfl rfl rfl
    · simp at hs
  | waitCall =>
    simp only [ThreadPool.step] at hs
    split at hs
    · simp at hs; subst hs; exact h.congr rfl rfl rfl rfl rfl rfl rfl rfl rfl rfl
    · simp at hs
  | waitCheck =>
    simp only [ThreadPool.step] at hs
    split at hs
    · simp at hs
    · split at hs
      · simp at hs; subst hs; exact h.congr rfl rfl rfl rfl rfl rfl rfl rfl rfl rfl
      · simp at hs; subst hs; exact h.congr rfl rfl rfl rfl rfl rfl rfl rfl rfl rfl
  | stopCall =>
    simp only [ThreadPool.step] at hs
    split at hs
    · simp at hs; subst hs; exact h.congr rfl rfl rfl rfl rfl rfl rfl rfl rfl rfl
    · simp at hs
  | dtorStop =>
    simp only [ThreadPool.step] at hs
    split at hs
    · simp at hs; subst hs; exact h.congr rfl rfl rfl rfl rfl rfl rfl rfl rfl rfl
    · simp at hs
  | dtorNotify =>
    simp only [ThreadPool.step] at hs
    split at hs
    · simp at hs; subst hs
      exact h.congr rfl rfl rfl rfl (runningOf_wake _) rfl rfl rfl rfl rfl
    · simp at hs
  | dtorJoin =>
    simp only [ThreadPool.step] at hs
    split at hs
    · simp at hs; subst hs; exact h.congr rfl rfl rfl rfl rfl rfl rfl rfl rfl rfl
    · simp at hs

theorem Inv.of_reachable {allow : State → Action → Prop} {n : Nat} {s : State}
    (h : Reachable allow n s) : Inv s := by
  induction h with
  | init => exact inv_init n
  | step _ _ hs ih => exact ih.step hs

end Verif.ThreadPool
