import Verif.RWLock.Invariant

/-!
# Properties C07–C10, C61 of the reader/writer mutexes
-/

namespace Verif.RWLock

/-- Thread `i` has been granted the write lock and has not released it. -/
def HoldsWrite (s : State) (i : Nat) : Prop := s.threads[i]? = some .writing

/-- Thread `i` is inside `upgradeToWriteLock` (accepted, not yet returned). -/
def Upgrading (s : State) (i : Nat) : Prop :=
  s.threads[i]? = some .upAsleep ∨ s.threads[i]? = some .upWoken

/-- Thread `i` has been granted the read lock and has not released it (a thread inside
`upgradeToWriteLock` keeps its read lock). -/
def HoldsRead (s : State) (i : Nat) : Prop := s.threads[i]? = some .reading ∨ Upgrading s i

/-- Thread `i` is inside `acquireWriteLock`. -/
def WaitsWrite (s : State) (i : Nat) : Prop :=
  s.threads[i]? = some .wr1Asleep ∨ s.threads[i]? = some .wr1Woken ∨
  s.threads[i]? = some .wr2Asleep ∨ s.threads[i]? = some .wr2Woken

/-- Thread `i` is inside `acquireReadLock`. -/
def WaitsRead (s : State) (i : Nat) : Prop :=
  s.threads[i]? = some .rdAsleep ∨ s.threads[i]? = some .rdWoken

/-- Run a list of actions. -/
def run (v : Variant) : State → List Action → Option State
  | s, [] => some s
  | s, a :: as => match step v s a with
    | some s' => run v s' as
    | none => none

theorem reachable_run {v : Variant} {n : Nat} : ∀ {as : List Action} {s s' : State},
    Reachable v n s → run v s as = some s' → Reachable v n s'
  | [], s, s', h, hr => by simp [run] at hr; subst hr; exact h
  | a :: as, s, s', h, hr => by
    simp only [run] at hr
    split at hr
    · rename_i s1 hs; exact reachable_run (.step h hs) hr
    · simp at hr

theorem count_two {p : Pc} : ∀ {l : List Pc} {i j : Nat}, l[i]? = some p → l[j]? = some p → i < j →
    2 ≤ l.count p
  | [], _, _, h, _, _ => by simp at h
  | x :: l, _, 0, _, _, h => absurd h (Nat.not_lt_zero _)
  | x :: l, 0, j + 1, hi, hj, _ => by
    simp at hi hj
    subst hi
    have := count_pos hj
    rw [List.count_cons_self]; omega
  | x :: l, i + 1, j + 1, hi, hj, hij => by
    simp at hi hj
    have := count_two hi hj (by omega)
    simp [List.count_cons]; omega

theorem count_two_ne {p : Pc} {l : List Pc} {i j : Nat} (hi : l[i]? = some p) (hj : l[j]? = some p)
    (hij : i ≠ j) : 2 ≤ l.count p := by
  rcases Nat.lt_or_gt_of_ne hij with h | h
  · exact count_two hi hj h
  · exact count_two hj hi h

/-! ## C07 -/

/-- **C07.** While a thread holds the write lock no other thread holds a read or write lock, for
both mutex classes. -/
theorem writer_excludes_others {v : Variant} {n : Nat} {s : State} (h : Reachable v n s)
    {i j : Nat} (hi : HoldsWrite s i) (hij : j ≠ i) : ¬ HoldsWrite s j ∧ ¬ HoldsRead s j := by
  have hinv := Inv.of_reachable h
  have hc := count_pos hi
  have hw := hinv.writer
  have hcw : s.currentWriter = true := by
    cases hcw : s.currentWriter with
    | true => rfl
    | false => simp [hcw] at hw; omega
  have hr := hinv.excl hcw
  have hrd := hinv.readers
  rw [if_pos hcw] at hw
  constructor
  · intro hj
    have := count_two_ne hj hi hij
    omega
  · rintro (hj | hj | hj) <;> (have := count_pos hj; omega)

/-- Non-vacuity: two readers at once; later a writer while a reader and a writer wait. -/
example : ∃ s, Reachable .base 2 s ∧ HoldsRead s 0 ∧ HoldsRead s 1 :=
  ⟨_, reachable_run (as := [.acquireRead 0, .acquireRead 1]) .init rfl, Or.inl rfl, Or.inl rfl⟩

example : ∃ s, Reachable .readerFirst 3 s ∧ HoldsWrite s 0 ∧ WaitsRead s 1 ∧ WaitsWrite s 2 :=
  ⟨_, reachable_run (as := [.acquireWrite 0, .acquireRead 1, .acquireWrite 2]) .init rfl,
    rfl, Or.inl rfl, Or.inr (Or.inr (Or.inl rfl))⟩

/-! ## C08 -/

/-- **C08 (no writer in between).** While an accepted upgrade is in progress nobody holds the write
lock. -/
theorem no_writer_during_upgrade {v : Variant} {n : Nat} {s : State} (h : Reachable v n s)
    {i : Nat} (hi : Upgrading s i) (j : Nat) : ¬ HoldsWrite s j := by
  intro hj
  have : j ≠ i := by
    intro e; subst e
    rcases hi with hi | hi <;> (unfold HoldsWrite at hj; rw [hj] at hi; simp at hi)
  exact (writer_excludes_others h hj (Ne.symm this)).2 (Or.inr hi)

/-- **C08 (one at a time).** At most one upgrade is in progress. -/
theorem one_upgrade_at_a_time {v : Variant} {n : Nat} {s : State} (h : Reachable v n s)
    {i j : Nat} (hi : Upgrading s i) (hj : Upgrading s j) : i = j := by
  have hinv := Inv.of_reachable h
  have hu := hinv.upgrade
  apply Classical.byContradiction
  intro hij
  have hle : s.threads.count .upAsleep + s.threads.count .upWoken ≤ 1 := by
    split at hu <;> omega
  rcases hi with hi | hi <;> rcases hj with hj | hj
  · have := count_two_ne hi hj hij; omega
  · have := count_pos hi; have := count_pos hj; omega
  · have := count_pos hi; have := count_pos hj; omega
  · have := count_two_ne hi hj hij; omega

theorem getElem?_map_of {l : List Pc} {i : Nat} {p : Pc} (f : Pc → Pc) (h : l[i]? = some p) :
    (l.map f)[i]? = some (f p) := by simp [h]

theorem lt_of_some {l : List Pc} {i : Nat} {p : Pc} (h : l[i]? = some p) : i < l.length := by
  rw [List.getElem?_eq_some_iff] at h; exact h.1

/-- **C08 (no gap).** A thread inside an accepted upgrade stays there until it holds the write lock:
no step of any thread makes it lose its claim. -/
theorem upgrade_ends_as_writer {v : Variant} {n : Nat} {s s' : State} (h : Reachable v n s)
    {i : Nat} (hi : Upgrading s i) {a : Action} (hs : step v s a = some s') :
    Upgrading s' i ∨ HoldsWrite s' i := by
  have hinv := Inv.of_reachable h
  -- the thread's own location under notifications
  have hwR : ∀ t : State, Upgrading t i → Upgrading t.notifyReaders i := by
    rintro t (ht | ht)
    · exact Or.inr (getElem?_map_of wakeR ht)
    · exact Or.inr (getElem?_map_of wakeR ht)
  have hwW : ∀ t : State, Upgrading t i → Upgrading t.notifyWriterFinished i := by
    rintro t (ht | ht)
    · exact Or.inl (getElem?_map_of wakeW ht)
    · exact Or.inr (getElem?_map_of wakeW ht)
  have hgo : ∀ (t : State) (k : Nat) (p : Pc), t.threads = s.threads → k ≠ i →
      Upgrading (t.goto k p) i := by
    intro t k p ht hk
    unfold Upgrading State.goto
    simp only [ht, List.getElem?_set_ne hk]
    exact hi
  have hne : ∀ k p, s.threads[k]? = some p → p ≠ .upAsleep → p ≠ .upWoken → k ≠ i := by
    intro k p hk h1 h2 e
    subst e
    rcases hi with hi | hi <;> (rw [hk] at hi; simp at hi; contradiction)
  cases a with
  | acquireRead k =>
    simp only [step] at hs; split at hs
    · rename_i hk; simp only [Option.some.injEq] at hs; subst hs
      have hki := hne k _ hk (by simp) (by simp)
      left
      cases v <;> simp only [acquireRead, tryRead] <;> split <;> exact hgo _ k _ rfl hki
    · simp at hs
  | acquireWrite k =>
    simp only [step] at hs; split at hs
    · rename_i hk; simp only [Option.some.injEq] at hs; subst hs
      have hki := hne k _ hk (by simp) (by simp)
      left
      cases v <;> simp only [acquireWrite, tryWrite1, tryWrite2] <;>
        (repeat' split) <;> exact hgo _ k _ rfl hki
    · simp at hs
  | releaseRead k =>
    simp only [step] at hs; split at hs
    · rename_i hk; simp only [Option.some.injEq] at hs; subst hs
      have hki := hne k _ hk (by simp) (by simp)
      left
      unfold releaseRead
      simp only
      split
      · exact hwR _ (hgo _ k _ rfl hki)
      · exact hgo _ k _ rfl hki
    · simp at hs
  | releaseWrite k =>
    simp only [step] at hs; split at hs
    · rename_i hk; simp only [Option.some.injEq] at hs; subst hs
      exact Or.inl (hgo _ k _ rfl (hne k _ hk (by simp) (by simp)))
    · simp at hs
  | upgrade k =>
    simp only [step] at hs; split at hs
    · rename_i hk; simp only [Option.some.injEq] at hs; subst hs
      have hki := hne k _ hk (by simp) (by simp)
      have hp : s.pendingUpgrade = true := by
        have hu := hinv.upgrade
        cases hp : s.pendingUpgrade with
        | true => rfl
        | false =>
          rw [hp] at hu; simp only [Bool.false_eq_true, if_false] at hu
          rcases hi with hi | hi <;> (have := count_pos hi; omega)
      left
      rw [upgrade_eq_refused (hinv.readers_pos hk) hp]
      split
      · exact hwR _ (hgo _ k _ rfl hki)
      · exact hgo _ k _ rfl hki
    · simp at hs
  | notify k =>
    simp only [step] at hs; split at hs
    · rename_i hk; simp only [Option.some.injEq] at hs; subst hs
      exact Or.inl (hwW _ (hgo _ k _ rfl (hne k _ hk (by simp) (by simp))))
    · simp at hs
  | resume k =>
    simp only [step] at hs
    split at hs
    · rename_i hk; simp only [Option.some.injEq] at hs; subst hs
      have hki := hne k _ hk (by simp) (by simp)
      left
      cases v <;> simp only [tryRead] <;> split <;> exact hgo _ k _ rfl hki
    · rename_i hk; simp only [Option.some.injEq] at hs; subst hs
      have hki := hne k _ hk (by simp) (by simp)
      left
      cases v <;> simp only [tryWrite1, tryWrite2] <;>
        (repeat' split) <;> exact hgo _ k _ rfl hki
    · rename_i hk; simp only [Option.some.injEq] at hs; subst hs
      have hki := hne k _ hk (by simp) (by simp)
      left
      cases v <;> simp only [resumeWrite2, tryWrite1, tryWrite2] <;>
        (repeat' split) <;> exact hgo _ k _ rfl hki
    · rename_i hk; simp only [Option.some.injEq] at hs; subst hs
      have hki : k = i := one_upgrade_at_a_time h (Or.inr hk) hi
      subst hki
      have hlt := lt_of_some hk
      have hc := count_pos hk
      have hr := hinv.readers
      rw [tryUpgrade_eq (by omega)]
      split
      · left; left; simp [State.goto, hlt]
      · right; simp [HoldsWrite, State.goto, State.notifyReaders, hlt, wakeR]
    · simp at hs
  | spurious k =>
    simp only [step] at hs
    split at hs
    all_goals first
      | (simp at hs; done)
      | skip
    all_goals
      rename_i hk
      simp only [Option.some.injEq] at hs
      subst hs
      left
    · exact hgo _ k _ rfl (hne k _ hk (by simp) (by simp))
    · exact hgo _ k _ rfl (hne k _ hk (by simp) (by simp))
    · exact hgo _ k _ rfl (hne k _ hk (by simp) (by simp))
    · have hki : k = i := one_upgrade_at_a_time h (Or.inl hk) hi
      subst hki
      right; simp [State.goto, lt_of_some hk]

/-- **C08 (decision).** A call of `upgradeToWriteLock` is refused exactly if another upgrade is in
progress; a refused caller holds no lock afterwards, an accepted one is upgrading or already writer. -/
theorem upgrade_decision {v : Variant} {n : Nat} {s s' : State} (h : Reachable v n s)
    {i : Nat} (hs : step v s (.upgrade i) = some s') :
    ((∃ j, Upgrading s j) → s'.threads[i]? = some .idle ∧ s'.numReaders + 1 = s.numReaders) ∧
    ((¬ ∃ j, Upgrading s j) → Upgrading s' i ∨ HoldsWrite s' i) := by
  have hinv := Inv.of_reachable h
  simp only [step] at hs; split at hs
  · rename_i hk; simp only [Option.some.injEq] at hs; subst hs
    have hlt := lt_of_some hk
    have hc := count_pos hk
    have hr := hinv.readers
    have hu := hinv.upgrade
    constructor
    · rintro ⟨j, hj⟩
      have hp : s.pendingUpgrade = true := by
        cases hp : s.pendingUpgrade with
        | true => rfl
        | false =>
          rw [hp] at hu; simp only [Bool.false_eq_true, if_false] at hu
          rcases hj with hj | hj <;> (have := count_pos hj; omega)
      rw [upgrade_eq_refused (hinv.readers_pos hk) hp]
      split <;> simp [State.goto, State.notifyReaders, hlt, wakeR] <;> omega
    · intro hno
      have hp : ¬ s.pendingUpgrade = true := by
        intro hp
        rw [if_pos hp] at hu
        have : 0 < s.threads.count .upAsleep ∨ 0 < s.threads.count .upWoken := by omega
        rcases this with h1 | h1
        · obtain ⟨j, hj⟩ := List.mem_iff_getElem?.mp (List.count_pos_iff.mp h1)
          exact hno ⟨j, Or.inl hj⟩
        · obtain ⟨j, hj⟩ := List.mem_iff_getElem?.mp (List.count_pos_iff.mp h1)
          exact hno ⟨j, Or.inr hj⟩
      unfold upgrade
      rw [if_neg hp, tryUpgrade_eq (by simp only; omega)]
      split
      · left; left; simp [State.goto, hlt]
      · right; simp [HoldsWrite, State.goto, State.notifyReaders, hlt, wakeR]
  · simp at hs

/-- Non-vacuity: thread 0 upgrades while thread 1 still reads; thread 1's own attempt is refused and
thread 0 becomes the writer. -/
example : ∃ s s', Reachable .base 2 s ∧ Upgrading s 0 ∧ step .base s (.upgrade 1) = some s' ∧
    s'.threads = [.upWoken, .idle] ∧ ∃ s'', step .base s' (.resume 0) = some s'' ∧ HoldsWrite s'' 0 :=
  ⟨_, _, reachable_run (as := [.acquireRead 0, .acquireRead 1, .upgrade 0]) .init rfl, Or.inl rfl,
    rfl, rfl, _, rfl, rfl⟩

/-! ## C09 -/

/-- The loop condition a blocked thread waits on, stated in terms of who holds what. -/
def Blocked (v : Variant) (s : State) : Pc → Prop
  | .rdAsleep => (∃ j, HoldsWrite s j) ∨ (v = .base ∧ ((∃ j, Upgrading s j) ∨ ∃ j, WaitsWrite s j))
  | .wr1Asleep => ∃ j : Nat, s.threads[j]? = some Pc.reading
  | .wr2Asleep => ∃ j, HoldsWrite s j ∨ Upgrading s j
  | .upAsleep => ∃ j : Nat, s.threads[j]? = some Pc.reading
  | _ => True

theorem exists_of_count_pos {l : List Pc} {p : Pc} (h : 0 < l.count p) : ∃ j : Nat, l[j]? = some p :=
  List.mem_iff_getElem?.mp (List.count_pos_iff.mp h)

/-- **C09 (no lost wake-up).** Every blocked thread has a reason to be blocked, or the notification that
will wake it is still to be sent by a thread leaving `releaseWriteLock`. -/
theorem blocked_thread_has_reason {v : Variant} {n : Nat} {s : State} (h : Reachable v n s)
    {i : Nat} {p : Pc} (hi : s.threads[i]? = some p) :
    Blocked v s p ∨
      ((p = .rdAsleep ∨ p = .wr2Asleep) ∧ ∃ j : Nat, s.threads[j]? = some Pc.relNotify) := by
  have hinv := Inv.of_reachable h
  have hc := count_pos hi
  have hr := hinv.readers
  have hu := hinv.upgrade
  have hw := hinv.writer
  have hcw : s.currentWriter = true → ∃ j, HoldsWrite s j := by
    intro hcw; rw [if_pos hcw] at hw
    exact exists_of_count_pos (by omega)
  have hpu : s.pendingUpgrade = true → ∃ j, Upgrading s j := by
    intro hpu; rw [if_pos hpu] at hu
    have : 0 < s.threads.count .upAsleep ∨ 0 < s.threads.count .upWoken := by omega
    rcases this with h1 | h1
    · obtain ⟨j, hj⟩ := exists_of_count_pos h1; exact ⟨j, Or.inl hj⟩
    · obtain ⟨j, hj⟩ := exists_of_count_pos h1; exact ⟨j, Or.inr hj⟩
  cases p <;> simp only [Blocked, true_or]
  case rdAsleep =>
    rcases hinv.rdA hc with ⟨hv, hp | hp⟩ | hp | hp
    · left; right
      refine ⟨hv, Or.inr ?_⟩
      have hpw := hinv.pendW
      rw [if_pos hv] at hpw
      have : 0 < s.threads.count .wr1Asleep ∨ 0 < s.threads.count .wr1Woken ∨
        0 < s.threads.count .wr2Asleep ∨ 0 < s.threads.count .wr2Woken := by omega
      rcases this with h1 | h1 | h1 | h1 <;> obtain ⟨j, hj⟩ := exists_of_count_pos h1 <;>
        exact ⟨j, by simp [WaitsWrite, hj]⟩
    · left; right; exact ⟨hv, Or.inl (hpu hp)⟩
    · left; left; exact hcw hp
    · right; exact ⟨by simp, exists_of_count_pos hp⟩
  case wr1Asleep =>
    have := hinv.wr1A hc
    left
    exact exists_of_count_pos (by split at this <;> simp_all <;> omega)
  case wr2Asleep =>
    rcases hinv.wr2A hc with hp | hp | hp
    · obtain ⟨j, hj⟩ := hpu hp; exact Or.inl ⟨j, Or.inr hj⟩
    · obtain ⟨j, hj⟩ := hcw hp; exact Or.inl ⟨j, Or.inl hj⟩
    · right; exact ⟨by simp, exists_of_count_pos hp⟩
  case upAsleep =>
    have := hinv.upA hc
    left
    have hle : s.threads.count .upAsleep + s.threads.count .upWoken ≤ 1 := by
      split at hu <;> omega
    exact exists_of_count_pos (by omega)

/-- Steps that only finish what is going on: woken threads continue, notifications are sent, holders
release. No new acquire or upgrade calls. -/
def Closing : Action → Prop
  | .releaseRead _ | .releaseWrite _ | .resume _ | .notify _ => True
  | _ => False

/-- **C09 (no deadlock).** If nothing is left to finish, no thread is inside a lock call or holds a
lock. In particular threads never block each other forever. -/
theorem all_idle_at_rest {v : Variant} {n : Nat} {s : State} (h : Reachable v n s)
    (hq : ∀ a, Closing a → step v s a = none) : ∀ p ∈ s.threads, p = .idle := by
  have hinv := Inv.of_reachable h
  have zero : ∀ p, (∀ i : Nat, s.threads[i]? = some p → False) → s.threads.count p = 0 := by
    intro p hp
    apply Classical.byContradiction
    intro hne
    obtain ⟨j, hj⟩ := exists_of_count_pos (Nat.pos_of_ne_zero hne)
    exact hp j hj
  have h1 := zero .reading (fun i hi => by have := hq (.releaseRead i) trivial; simp [step, hi] at this)
  have h2 := zero .writing (fun i hi => by have := hq (.releaseWrite i) trivial; simp [step, hi] at this)
  have h3 := zero .relNotify (fun i hi => by have := hq (.notify i) trivial; simp [step, hi] at this)
  have h4 := zero .rdWoken (fun i hi => by have := hq (.resume i) trivial; simp [step, hi] at this)
  have h5 := zero .wr1Woken (fun i hi => by have := hq (.resume i) trivial; simp [step, hi] at this)
  have h6 := zero .wr2Woken (fun i hi => by have := hq (.resume i) trivial; simp [step, hi] at this)
  have h7 := zero .upWoken (fun i hi => by have := hq (.resume i) trivial; simp [step, hi] at this)
  obtain ⟨i1, i2, i3, i4, i5, i6, i7, i8, i9, i10, i11⟩ := hinv
  have hup : s.threads.count .upAsleep = 0 := by
    have : s.threads.count .upAsleep ≤ 1 := by split at i2 <;> omega
    omega
  have hcw : ¬ s.currentWriter = true := by intro hc; rw [if_pos hc] at i3; omega
  have hpu : ¬ s.pendingUpgrade = true := by intro hc; rw [if_pos hc] at i2; omega
  have hwr1 : s.threads.count .wr1Asleep = 0 := by
    rw [if_neg hpu] at i9; omega
  have hwr2 : s.threads.count .wr2Asleep = 0 := by
    rcases Nat.eq_zero_or_pos (s.threads.count .wr2Asleep) with h0 | h0
    · exact h0
    · rcases i10 h0 with hp | hp | hp
      · exact absurd hp hpu
      · exact absurd hp hcw
      · omega
  have hrd : s.threads.count .rdAsleep = 0 := by
    rcases Nat.eq_zero_or_pos (s.threads.count .rdAsleep) with h0 | h0
    · exact h0
    · rcases i8 h0 with ⟨hv, hp | hp⟩ | hp | hp
      · rw [if_pos hv] at i6; omega
      · exact absurd hp hpu
      · exact absurd hp hcw
      · omega
  intro p hp
  have hpos := List.count_pos_iff.mpr hp
  cases p <;> first | rfl | omega

/-- Amount of unfinished business of a thread. -/
def weight : Pc → Nat
  | .idle => 0
  | .relNotify => 1
  | .writing => 2
  | .reading => 1
  | .rdAsleep | .rdWoken => 2
  | .wr1Asleep | .wr1Woken | .wr2Asleep | .wr2Woken => 3
  | .upAsleep | .upWoken => 3

def woken : Pc → Nat
  | .rdWoken | .wr1Woken | .wr2Woken | .upWoken => 1
  | _ => 0

theorem sum_set (f : Pc → Nat) : ∀ {l : List Pc} {i : Nat} {a : Pc} (b : Pc), l[i]? = some a →
    ((l.set i b).map f).sum + f a = (l.map f).sum + f b
  | [], _, _, _, h => by simp at h
  | x :: l, 0, a, b, h => by simp at h; subst h; simp; omega
  | x :: l, i + 1, a, b, h => by
    simp at h
    have := sum_set f b h
    simp only [List.set_cons_succ, List.map_cons, List.sum_cons]; omega

theorem weight_wakeR (l : List Pc) : ((l.map wakeR).map weight).sum = (l.map weight).sum := by
  rw [List.map_map]; congr 1; apply List.map_congr_left; intro p _; cases p <;> rfl

theorem weight_wakeW (l : List Pc) : ((l.map wakeW).map weight).sum = (l.map weight).sum := by
  rw [List.map_map]; congr 1; apply List.map_congr_left; intro p _; cases p <;> rfl

def measure (s : State) : Nat × Nat := ((s.threads.map weight).sum, (s.threads.map woken).sum)

theorem measure_goto_left {s t : State} {i : Nat} {a b : Pc} (hi : s.threads[i]? = some a)
    (ht : t.threads = s.threads) (hab : weight b < weight a) :
    Prod.Lex (· < ·) (· < ·) (measure (t.goto i b)) (measure s) := by
  apply Prod.Lex.left
  have := sum_set weight b hi
  simp only [State.goto, ht]; omega

theorem measure_goto_right {s t : State} {i : Nat} {a b : Pc} (hi : s.threads[i]? = some a)
    (ht : t.threads = s.threads) (hab : weight b = weight a) (hw : woken b < woken a) :
    Prod.Lex (· < ·) (· < ·) (measure (t.goto i b)) (measure s) := by
  unfold measure
  have := sum_set weight b hi
  have h2 := sum_set woken b hi
  have e : ((t.goto i b).threads.map weight).sum = (s.threads.map weight).sum := by
    simp only [State.goto, ht]; omega
  rw [e]
  apply Prod.Lex.right
  simp only [State.goto, ht]; omega

theorem measure_notify_left {s t : State} {i : Nat} {a b : Pc} (hi : s.threads[i]? = some a)
    (ht : t.threads = s.threads) (hab : weight b < weight a) (f : List Pc → List Pc)
    (hf : ∀ l, ((f l).map weight).sum = (l.map weight).sum) (t' : State)
    (ht' : t'.threads = f (t.goto i b).threads) :
    Prod.Lex (· < ·) (· < ·) (measure t') (measure s) := by
  apply Prod.Lex.left
  have := sum_set weight b hi
  simp only [ht', hf, State.goto, ht]; omega

theorem closing_decreases {v : Variant} {s s' : State} {a : Action} (hinv : Inv v s) (ha : Closing a)
    (hs : step v s a = some s') : Prod.Lex (· < ·) (· < ·) (measure s') (measure s) := by
  cases a <;> simp only [Closing] at ha <;> simp only [step] at hs
  case releaseRead i =>
    split at hs
    · rename_i hk; simp only [Option.some.injEq] at hs; subst hs
      unfold releaseRead; simp only
      split
      · exact measure_notify_left (b := .idle) hk rfl (by decide) (List.map wakeR) weight_wakeR _ rfl
      · exact measure_goto_left hk rfl (by decide)
    · simp at hs
  case releaseWrite i =>
    split at hs
    · rename_i hk; simp only [Option.some.injEq] at hs; subst hs
      exact measure_goto_left hk rfl (by decide)
    · simp at hs
  case notify i =>
    split at hs
    · rename_i hk; simp only [Option.some.injEq] at hs; subst hs
      exact measure_notify_left (t := s) (b := .idle) hk rfl (by decide) (List.map wakeW) weight_wakeW _ rfl
    · simp at hs
  case resume i =>
    split at hs
    · rename_i hk; simp only [Option.some.injEq] at hs; subst hs
      cases v <;> simp only [tryRead] <;> split <;>
        first
          | exact measure_goto_left hk rfl (by decide)
          | exact measure_goto_right hk rfl (by decide) (by decide)
    · rename_i hk; simp only [Option.some.injEq] at hs; subst hs
      cases v <;> simp only [tryWrite1, tryWrite2] <;> (repeat' split) <;>
        first
          | exact measure_goto_left hk rfl (by decide)
          | exact measure_goto_right hk rfl (by decide) (by decide)
    · rename_i hk; simp only [Option.some.injEq] at hs; subst hs
      cases v <;> simp only [resumeWrite2, tryWrite1, tryWrite2] <;> (repeat' split) <;>
        first
          | exact measure_goto_left hk rfl (by decide)
          | exact measure_goto_right hk rfl (by decide) (by decide)
    · rename_i hk; simp only [Option.some.injEq] at hs; subst hs
      have hc := count_pos hk
      have hr := hinv.readers
      rw [tryUpgrade_eq (by omega)]
      split
      · exact measure_goto_right hk rfl (by decide) (by decide)
      · exact measure_notify_left
          (t := { s with pendingUpgrade := false, numReaders := 0, currentWriter := true })
          (b := .writing) hk rfl (by decide) (List.map wakeR) weight_wakeR _ rfl
    · simp at hs

/-- **C09 (progress).** With holders releasing and no new calls, the system always comes to rest after
finitely many steps, whatever the scheduler does. By `all_idle_at_rest` every blocked thread has then
obtained (and released) its lock. -/
theorem closing_steps_terminate (v : Variant) (n : Nat) :
    WellFounded (fun s' s : State => Reachable v n s ∧ ∃ a, Closing a ∧ step v s a = some s') := by
  refine Subrelation.wf (r := InvImage (Prod.Lex (· < ·) (· < ·)) measure) ?_
    (InvImage.wf _ (Prod.lex Nat.lt_wfRel Nat.lt_wfRel).wf)
  rintro s' s ⟨hr, a, ha, hs⟩
  exact closing_decreases (Inv.of_reachable hr) ha hs

/-- Non-vacuity: three threads, a writer, a blocked reader and a blocked writer; all get their turn. -/
example : ∃ s, Reachable .base 3 s ∧ s.threads = [.relNotify, .rdAsleep, .wr2Asleep] ∧
    ∃ s', run .base s [.notify 0, .resume 1, .resume 2, .releaseWrite 2, .notify 2, .resume 1,
      .releaseRead 1] = some s' ∧ s'.threads = [.idle, .idle, .idle] :=
  ⟨_, reachable_run (as := [.acquireWrite 0, .acquireRead 1, .acquireWrite 2, .releaseWrite 0])
    .init rfl, rfl, _, rfl, rfl⟩

/-! ## C10 -/

/-- **C10 (ReaderWriterMutex).** `isInUse()` is true exactly if some thread holds the lock or waits for
it. -/
theorem isInUse_exact_base {n : Nat} {s : State} (h : Reachable .base n s) :
    isInUse s = true ↔
      ∃ i, HoldsRead s i ∨ HoldsWrite s i ∨ WaitsRead s i ∨ WaitsWrite s i := by
  obtain ⟨i1, i2, i3, i4, i5, i6, _⟩ := Inv.of_reachable h
  simp only [if_true] at i5 i6
  constructor
  · intro hu
    have : 0 < s.threads.count .rdAsleep ∨ 0 < s.threads.count .rdWoken ∨
        0 < s.threads.count .reading ∨ 0 < s.threads.count .upAsleep ∨
        0 < s.threads.count .upWoken ∨ 0 < s.threads.count .wr1Asleep ∨
        0 < s.threads.count .wr1Woken ∨ 0 < s.threads.count .wr2Asleep ∨
        0 < s.threads.count .wr2Woken ∨ 0 < s.threads.count .writing := by
      simp only [isInUse, Bool.or_eq_true, decide_eq_true_eq] at hu
      rcases hu with (((hu | hu) | hu) | hu) | hu
      · omega
      · omega
      · omega
      · rw [if_pos hu] at i3; omega
      · rw [if_pos hu] at i2; omega
    rcases this with h1 | h1 | h1 | h1 | h1 | h1 | h1 | h1 | h1 | h1 <;>
      obtain ⟨j, hj⟩ := exists_of_count_pos h1 <;>
      exact ⟨j, by simp [HoldsRead, HoldsWrite, WaitsRead, WaitsWrite, Upgrading, hj]⟩
  · rintro ⟨i, hi⟩
    simp only [isInUse, Bool.or_eq_true, decide_eq_true_eq]
    rcases hi with (hi | hi | hi) | hi | (hi | hi) | (hi | hi | hi | hi) <;>
      have hc := count_pos hi
    · omega
    · omega
    · omega
    · left; right
      cases hcw : s.currentWriter with
      | true => rfl
      | false => rw [hcw] at i3; simp only [Bool.false_eq_true, if_false] at i3; omega
    all_goals omega

/-- **C10 is violated by `ReaderFirstReaderWriterMutex`**: it inherits `isInUse` but does not maintain
the pending counters, so a thread waiting for the lock is not reported. -/
theorem isInUse_readerFirst_refuted :
    ∃ s, Reachable .readerFirst 2 s ∧ isInUse s = false ∧ WaitsRead s 1 :=
  ⟨_, reachable_run (as := [.acquireWrite 0, .acquireRead 1, .releaseWrite 0]) .init rfl, rfl,
    Or.inl rfl⟩

/-- **C10 (partial, reader-first).** For the reader-first class `isInUse()` is true exactly if some
thread holds the lock; missing: waiting threads are not counted (`isInUse_readerFirst_refuted`). -/
theorem isInUse_readerFirst_partial {n : Nat} {s : State} (h : Reachable .readerFirst n s) :
    isInUse s = true ↔ ∃ i, HoldsRead s i ∨ HoldsWrite s i := by
  obtain ⟨i1, i2, i3, i4, i5, i6, _⟩ := Inv.of_reachable h
  simp only [reduceCtorEq, if_false] at i5 i6
  constructor
  · intro hu
    have : 0 < s.threads.count .reading ∨ 0 < s.threads.count .upAsleep ∨
        0 < s.threads.count .upWoken ∨ 0 < s.threads.count .writing := by
      simp only [isInUse, Bool.or_eq_true, decide_eq_true_eq] at hu
      rcases hu with (((hu | hu) | hu) | hu) | hu
      · omega
      · omega
      · omega
      · rw [if_pos hu] at i3; omega
      · rw [if_pos hu] at i2; omega
    rcases this with h1 | h1 | h1 | h1 <;>
      obtain ⟨j, hj⟩ := exists_of_count_pos h1 <;>
      exact ⟨j, by simp [HoldsRead, HoldsWrite, Upgrading, hj]⟩
  · rintro ⟨i, hi⟩
    simp only [isInUse, Bool.or_eq_true, decide_eq_true_eq]
    rcases hi with (hi | hi | hi) | hi <;>
      have hc := count_pos hi
    · omega
    · omega
    · omega
    · left; right
      cases hcw : s.currentWriter with
      | true => rfl
      | false => rw [hcw] at i3; simp only [Bool.false_eq_true, if_false] at i3; omega

/-- Non-vacuity: in use with only a waiting reader and a pending notification (base class). -/
example : ∃ s, Reachable .base 2 s ∧ s.threads = [.relNotify, .rdAsleep] ∧ isInUse s = true :=
  ⟨_, reachable_run (as := [.acquireWrite 0, .acquireRead 1, .releaseWrite 0]) .init rfl, rfl, rfl⟩

/-! ## C61 -/

/-- A step of `ReaderWriterMutex` grants no read lock while the condition of the wait loop of
`acquireReadLock` holds for writers or an upgrade. -/
theorem no_new_reader_of_blocked {n : Nat} {s s' : State} (h : Reachable .base n s)
    (hpw : s.numPendingWriters ≠ 0 ∨ s.pendingUpgrade = true ∨ s.currentWriter = true)
    {a : Action} (hs : step .base s a = some s')
    {i : Nat} (hi : s'.threads[i]? = some .reading) : s.threads[i]? = some .reading := by
  have hinv := Inv.of_reachable h
  have hgo : ∀ (t : State) (k : Nat) (p : Pc), t.threads = s.threads → p ≠ .reading →
      (t.goto k p).threads[i]? = some .reading → s.threads[i]? = some .reading := by
    intro t k p ht hp hr
    simp only [State.goto, ht] at hr
    rw [List.getElem?_set] at hr
    split at hr
    · split at hr
      · simp at hr; exact absurd hr hp
      · simp at hr
    · exact hr
  have hR : ∀ l : List Pc, (l.map wakeR)[i]? = some .reading → l[i]? = some .reading := by
    intro l hl
    simp only [List.getElem?_map, Option.map_eq_some_iff] at hl
    obtain ⟨p, h1, h2⟩ := hl
    cases p <;> simp [wakeR] at h2
    exact h1
  have hW : ∀ l : List Pc, (l.map wakeW)[i]? = some .reading → l[i]? = some .reading := by
    intro l hl
    simp only [List.getElem?_map, Option.map_eq_some_iff] at hl
    obtain ⟨p, h1, h2⟩ := hl
    cases p <;> simp [wakeW] at h2
    exact h1
  cases a with
  | acquireRead k =>
    simp only [step] at hs; split at hs
    · simp only [Option.some.injEq] at hs; subst hs
      simp only [acquireRead, tryRead] at hi
      rw [if_pos hpw] at hi
      exact hgo _ k _ rfl (by simp) hi
    · simp at hs
  | acquireWrite k =>
    simp only [step] at hs; split at hs
    · simp only [Option.some.injEq] at hs; subst hs
      simp only [acquireWrite, tryWrite1, tryWrite2] at hi
      repeat' split at hi
      all_goals exact hgo _ k _ rfl (by simp) hi
    · simp at hs
  | releaseRead k =>
    simp only [step] at hs; split at hs
    · simp only [Option.some.injEq] at hs; subst hs
      unfold releaseRead at hi
      simp only at hi
      split at hi
      · exact hgo _ k _ rfl (by simp) (hR _ hi)
      · exact hgo _ k _ rfl (by simp) hi
    · simp at hs
  | releaseWrite k =>
    simp only [step] at hs; split at hs
    · simp only [Option.some.injEq] at hs; subst hs
      exact hgo _ k _ rfl (by simp) hi
    · simp at hs
  | upgrade k =>
    simp only [step] at hs; split at hs
    · rename_i hk; simp only [Option.some.injEq] at hs; subst hs
      have hc := count_pos hk
      have hr := hinv.readers
      by_cases hp : s.pendingUpgrade = true
      · rw [upgrade_eq_refused (hinv.readers_pos hk) hp] at hi
        split at hi
        · exact hgo _ k _ rfl (by simp) (hR _ hi)
        · exact hgo _ k _ rfl (by simp) hi
      · unfold upgrade at hi
        rw [if_neg hp, tryUpgrade_eq (by simp only; omega)] at hi
        split at hi
        · exact hgo _ k _ rfl (by simp) hi
        · exact hgo { s with pendingUpgrade := false, numReaders := 0, currentWriter := true } k
            _ rfl (by simp) (hR _ hi)
    · simp at hs
  | notify k =>
    simp only [step] at hs; split at hs
    · simp only [Option.some.injEq] at hs; subst hs
      exact hgo s k _ rfl (by simp) (hW _ hi)
    · simp at hs
  | resume k =>
    simp only [step] at hs
    split at hs
    · simp only [Option.some.injEq] at hs; subst hs
      simp only [tryRead] at hi
      rw [if_pos hpw] at hi
      exact hgo _ k _ rfl (by simp) hi
    · simp only [Option.some.injEq] at hs; subst hs
      simp only [tryWrite1, tryWrite2] at hi
      repeat' split at hi
      all_goals exact hgo _ k _ rfl (by simp) hi
    · simp only [Option.some.injEq] at hs; subst hs
      simp only [resumeWrite2, tryWrite2] at hi
      repeat' split at hi
      all_goals exact hgo _ k _ rfl (by simp) hi
    · rename_i hk; simp only [Option.some.injEq] at hs; subst hs
      have hc := count_pos hk
      have hr := hinv.readers
      rw [tryUpgrade_eq (by omega)] at hi
      split at hi
      · exact hgo _ k _ rfl (by simp) hi
      · exact hgo { s with pendingUpgrade := false, numReaders := 0, currentWriter := true } k
          _ rfl (by simp) (hR _ hi)
    · simp at hs
  | spurious k =>
    simp only [step] at hs
    split at hs
    all_goals first
      | (simp at hs; done)
      | skip
    all_goals
      simp only [Option.some.injEq] at hs
      subst hs
      exact hgo s k _ rfl (by simp) hi

/-- **C61 (writer preference).** In `ReaderWriterMutex`, while a thread waits for the write lock no step
lets a reader in: the set of threads holding the read lock does not grow. -/
theorem no_new_reader_while_writer_waits {n : Nat} {s s' : State} (h : Reachable .base n s)
    {w : Nat} (hw : WaitsWrite s w) {a : Action} (hs : step .base s a = some s')
    {i : Nat} (hi : s'.threads[i]? = some .reading) : s.threads[i]? = some .reading := by
  refine no_new_reader_of_blocked h (Or.inl ?_) hs hi
  have := (Inv.of_reachable h).pendW
  rw [if_pos rfl] at this
  rcases hw with hw | hw | hw | hw <;> (have := count_pos hw; omega)

/-- **C61 (upgrade preference).** In `ReaderWriterMutex`, while an accepted upgrade waits for the other
readers no step lets a reader in. -/
theorem no_new_reader_while_upgrade_waits {n : Nat} {s s' : State} (h : Reachable .base n s)
    {w : Nat} (hw : Upgrading s w) {a : Action} (hs : step .base s a = some s')
    {i : Nat} (hi : s'.threads[i]? = some .reading) : s.threads[i]? = some .reading := by
  refine no_new_reader_of_blocked h (Or.inr (Or.inl ?_)) hs hi
  have := (Inv.of_reachable h).upgrade
  apply Classical.byContradiction
  intro hn
  rw [if_neg hn] at this
  rcases hw with hw | hw <;> (have := count_pos hw; omega)

/-- Non-vacuity: a reader that arrives during an upgrade waits. -/
example : ∃ s s', Reachable .base 3 s ∧ Upgrading s 0 ∧ step .base s (.acquireRead 2) = some s' ∧
    s'.threads = [.upAsleep, .reading, .rdAsleep] :=
  ⟨_, _, reachable_run (as := [.acquireRead 0, .acquireRead 1, .upgrade 0]) .init rfl,
    Or.inl rfl, rfl, rfl⟩

/-- **C61 (reader preference).** In `ReaderFirstReaderWriterMutex` a reader gets the lock at once unless a
writer holds the lock, even if writers are waiting. -/
theorem reader_first_grants_at_once {n : Nat} {s s' : State} (h : Reachable .readerFirst n s)
    {i : Nat} (hs : step .readerFirst s (.acquireRead i) = some s')
    (hno : ∀ j, ¬ HoldsWrite s j) : s'.threads[i]? = some .reading := by
  have hinv := Inv.of_reachable h
  have hcw : ¬ s.currentWriter = true := by
    intro hc
    have := hinv.writer
    rw [if_pos hc] at this
    obtain ⟨j, hj⟩ := exists_of_count_pos (show 0 < s.threads.count .writing by omega)
    exact hno j hj
  simp only [step] at hs; split at hs
  · rename_i hk; simp only [Option.some.injEq] at hs; subst hs
    simp only [acquireRead, tryRead]
    rw [if_neg hcw]
    simp [State.goto, lt_of_some hk]
  · simp at hs

/-- Non-vacuity: a writer waits behind a reader; a second reader must wait (base) or gets it
(reader-first). -/
example : ∃ s s', Reachable .base 3 s ∧ WaitsWrite s 1 ∧ step .base s (.acquireRead 2) = some s' ∧
    s'.threads = [.reading, .wr1Asleep, .rdAsleep] :=
  ⟨_, _, reachable_run (as := [.acquireRead 0, .acquireWrite 1]) .init rfl, Or.inl rfl, rfl, rfl⟩

example : ∃ s s', Reachable .readerFirst 3 s ∧ WaitsWrite s 1 ∧
    step .readerFirst s (.acquireRead 2) = some s' ∧ s'.threads = [.reading, .wr1Asleep, .reading] :=
  ⟨_, _, reachable_run (as := [.acquireRead 0, .acquireWrite 1]) .init rfl, Or.inl rfl, rfl, rfl⟩

end Verif.RWLock
