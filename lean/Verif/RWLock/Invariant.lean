import Verif.RWLock.Lemmas

/-!
# Preservation of the invariant
-/

namespace Verif.RWLock

/-- Facts about all thread counts after thread `i` moves to `b`. -/
theorem counts {l : List Pc} {i : Nat} {a : Pc} (b : Pc) (h : l[i]? = some a) :
    (l.set i b).count .rdAsleep + (if a = .rdAsleep then 1 else 0) = l.count .rdAsleep + (if b = .rdAsleep then 1 else 0) ∧
    (l.set i b).count .rdWoken + (if a = .rdWoken then 1 else 0) = l.count .rdWoken + (if b = .rdWoken then 1 else 0) ∧
    (l.set i b).count .reading + (if a = .reading then 1 else 0) = l.count .reading + (if b = .reading then 1 else 0) ∧
    (l.set i b).count .wr1Asleep + (if a = .wr1Asleep then 1 else 0) = l.count .wr1Asleep + (if b = .wr1Asleep then 1 else 0) ∧
    (l.set i b).count .wr1Woken + (if a = .wr1Woken then 1 else 0) = l.count .wr1Woken + (if b = .wr1Woken then 1 else 0) ∧
    (l.set i b).count .wr2Asleep + (if a = .wr2Asleep then 1 else 0) = l.count .wr2Asleep + (if b = .wr2Asleep then 1 else 0) ∧
    (l.set i b).count .wr2Woken + (if a = .wr2Woken then 1 else 0) = l.count .wr2Woken + (if b = .wr2Woken then 1 else 0) ∧
    (l.set i b).count .writing + (if a = .writing then 1 else 0) = l.count .writing + (if b = .writing then 1 else 0) ∧
    (l.set i b).count .relNotify + (if a = .relNotify then 1 else 0) = l.count .relNotify + (if b = .relNotify then 1 else 0) ∧
    (l.set i b).count .upAsleep + (if a = .upAsleep then 1 else 0) = l.count .upAsleep + (if b = .upAsleep then 1 else 0) ∧
    (l.set i b).count .upWoken + (if a = .upWoken then 1 else 0) = l.count .upWoken + (if b = .upWoken then 1 else 0) :=
  ⟨count_set _ _ h, count_set _ _ h, count_set _ _ h, count_set _ _ h, count_set _ _ h,
   count_set _ _ h, count_set _ _ h, count_set _ _ h, count_set _ _ h, count_set _ _ h,
   count_set _ _ h⟩

/-- Close an invariant goal after the thread counts are known (`v`, the two flags and the branch are
already fixed). -/
macro "inv_close" h:ident hi:ident b:term : tactic => `(tactic| (
  obtain ⟨c1, c2, c3, c4, c5, c6, c7, c8, c9, c10, c11⟩ := counts $b $hi
  obtain ⟨i1, i2, i3, i4, i5, i6, i7, i8, i9, i10, i11⟩ := $h
  constructor <;>
    simp only [State.goto, State.notifyReaders, State.notifyWriterFinished, State.upgradeSlot,
      count_wakeR, count_wakeW, dec, reduceCtorEq, ite_true, ite_false, true_and, false_and, and_true,
      and_false, true_or, or_true, or_false,
      false_or, forall_const, Bool.false_eq_true, implies_true, false_implies, not_true, not_false_eq_true,
      Nat.add_zero, gt_iff_lt, ne_eq, Nat.lt_irrefl]
      at i1 i2 i3 i4 i5 i6 i7 i8 i9 i10 i11 c1 c2 c3 c4 c5 c6 c7 c8 c9 c10 c11 ⊢ <;>
    (try split) <;> (try omega)))

macro "inv_cases" v:ident s:ident : tactic => `(tactic| (
  obtain ⟨pr, nr, pw, cw, pu, ts⟩ := $s
  cases $v:ident <;> cases cw <;> cases pu))

macro "flags" : tactic => `(tactic|
  simp only [State.upgradeSlot, State.goto, reduceCtorEq, ite_true, ite_false, true_and, false_and,
    and_true, and_false, true_or, or_true, or_false, false_or, Bool.false_eq_true, not_true,
    not_false_eq_true, dec] at *)

theorem Inv.tryRead {v : Variant} {s : State} {i : Nat} (h : Inv v s)
    (hi : s.threads[i]? = some .rdWoken) : Inv v (tryRead v s i) := by
  inv_cases v s <;> simp only [RWLock.tryRead] <;> split <;> flags <;>
    first
      | (inv_close h hi Pc.rdAsleep; done)
      | (inv_close h hi Pc.reading; done)

theorem Inv.acquireRead {v : Variant} {s : State} {i : Nat} (h : Inv v s)
    (hi : s.threads[i]? = some .idle) : Inv v (acquireRead v s i) := by
  inv_cases v s <;> simp only [RWLock.acquireRead, RWLock.tryRead] <;> split <;> flags <;>
    first
      | (inv_close h hi Pc.rdAsleep; done)
      | (inv_close h hi Pc.reading; done)

theorem count_pos {l : List Pc} {i : Nat} {a : Pc} (h : l[i]? = some a) : 0 < l.count a :=
  List.count_pos_iff.mpr (List.mem_of_getElem? h)

theorem Inv.readers_pos {v : Variant} {s : State} {i : Nat} (h : Inv v s)
    (hi : s.threads[i]? = some .reading) : dec s.numReaders = s.numReaders - 1 := by
  have := count_pos hi
  have := h.readers
  unfold dec; rw [if_neg (by omega)]

theorem Inv.releaseRead {v : Variant} {s : State} {i : Nat} (h : Inv v s)
    (hi : s.threads[i]? = some .reading) : Inv v (releaseRead s i) := by
  have hd := h.readers_pos hi
  simp only [RWLock.releaseRead, hd]
  inv_cases v s <;> split <;> flags <;> (inv_close h hi Pc.idle; done)

theorem Inv.tryWrite1 {v : Variant} {s : State} {i : Nat} (h : Inv v s)
    (hi : s.threads[i]? = some .wr1Woken) : Inv v (tryWrite1 v s i) := by
  inv_cases v s <;> simp only [RWLock.tryWrite1, tryWrite2] <;> split <;> flags <;>
    first
      | (inv_close h hi Pc.wr1Asleep; done)
      | (inv_close h hi Pc.wr2Asleep; done)
      | (inv_close h hi Pc.writing; done)

theorem Inv.acquireWrite {v : Variant} {s : State} {i : Nat} (h : Inv v s)
    (hi : s.threads[i]? = some .idle) : Inv v (acquireWrite v s i) := by
  inv_cases v s <;> simp only [RWLock.acquireWrite, RWLock.tryWrite1, tryWrite2] <;> split <;>
    flags <;>
    first
      | (inv_close h hi Pc.wr1Asleep; done)
      | (inv_close h hi Pc.wr2Asleep; done)
      | (inv_close h hi Pc.writing; done)

theorem Inv.resumeWrite2 {v : Variant} {s : State} {i : Nat} (h : Inv v s)
    (hi : s.threads[i]? = some .wr2Woken) : Inv v (resumeWrite2 v s i) := by
  inv_cases v s <;> simp only [RWLock.resumeWrite2, RWLock.tryWrite1, tryWrite2] <;> flags
  · inv_close h hi Pc.writing
  · inv_close h hi Pc.wr2Asleep
  · inv_close h hi Pc.wr2Asleep
  · inv_close h hi Pc.wr2Asleep
  · split
    · inv_close h hi Pc.wr1Asleep
    · inv_close h hi Pc.writing
  · inv_close h hi Pc.wr2Asleep
  · inv_close h hi Pc.wr2Asleep
  · inv_close h hi Pc.wr2Asleep

theorem Inv.releaseWrite {v : Variant} {s : State} {i : Nat} (h : Inv v s)
    (hi : s.threads[i]? = some .writing) : Inv v (releaseWrite s i) := by
  inv_cases v s <;> simp only [RWLock.releaseWrite] <;> flags <;>
    (inv_close h hi Pc.relNotify; done)

theorem Inv.notify {v : Variant} {s : State} {i : Nat} (h : Inv v s)
    (hi : s.threads[i]? = some .relNotify) : Inv v (s.goto i .idle).notifyWriterFinished := by
  inv_cases v s <;> flags <;> (inv_close h hi Pc.idle; done)

theorem tryUpgrade_eq {s : State} {i : Nat} (hr : 0 < s.numReaders) :
    RWLock.tryUpgrade s i = if 1 < s.numReaders then s.goto i .upAsleep
      else ({ s with pendingUpgrade := false, numReaders := 0, currentWriter := true }.goto i
        .writing).notifyReaders := by
  unfold RWLock.tryUpgrade
  by_cases hn : s.numReaders > 1
  · rw [if_pos hn, if_pos hn]
  · rw [if_neg hn, if_neg hn]
    have h1 : s.numReaders = 1 := by omega
    simp [h1, dec, State.goto]

theorem upgrade_eq_refused {s : State} {i : Nat} (hd : dec s.numReaders = s.numReaders - 1)
    (hp : s.pendingUpgrade = true) :
    RWLock.upgrade s i =
      if s.numReaders - 1 = 1 then ({ s with numReaders := s.numReaders - 1 }.goto i .idle).notifyReaders
      else { s with numReaders := s.numReaders - 1 }.goto i .idle := by
  unfold RWLock.upgrade
  rw [if_pos hp, hd]; rfl

theorem Inv.tryUpgrade {v : Variant} {s : State} {i : Nat} (h : Inv v s)
    (hi : s.threads[i]? = some .upWoken) : Inv v (tryUpgrade s i) := by
  have hc := count_pos hi
  have hr := h.readers
  rw [tryUpgrade_eq (by omega)]
  by_cases hn : 1 < s.numReaders
  · rw [if_pos hn]
    inv_cases v s <;> flags <;> inv_close h hi Pc.upAsleep
  · rw [if_neg hn]
    inv_cases v s <;> flags <;> inv_close h hi Pc.writing

theorem Inv.upgrade' {v : Variant} {s : State} {i : Nat} (h : Inv v s)
    (hi : s.threads[i]? = some .reading) : Inv v (RWLock.upgrade s i) := by
  have hd := h.readers_pos hi
  have hc := count_pos hi
  have hr := h.readers
  by_cases hp : s.pendingUpgrade = true
  · rw [upgrade_eq_refused hd hp]
    clear hd
    by_cases h1 : s.numReaders - 1 = 1
    · rw [if_pos h1]
      inv_cases v s <;> flags <;> inv_close h hi Pc.idle
    · rw [if_neg h1]
      inv_cases v s <;> flags <;> inv_close h hi Pc.idle
  · unfold RWLock.upgrade
    rw [if_neg hp, tryUpgrade_eq (by simp only; omega)]
    clear hd
    by_cases hn : 1 < s.numReaders
    · rw [if_pos hn]
      inv_cases v s <;> flags <;> inv_close h hi Pc.upAsleep
    · rw [if_neg hn]
      inv_cases v s <;> flags <;> inv_close h hi Pc.writing

theorem Inv.spurious {v : Variant} {s s' : State} {i : Nat} (h : Inv v s)
    (hs : step v s (.spurious i) = some s') : Inv v s' := by
  simp only [step] at hs
  split at hs
  all_goals first
    | (simp at hs; done)
    | skip
  all_goals
    rename_i hi
    simp only [Option.some.injEq] at hs
    subst hs
  · inv_cases v s <;> flags <;> (inv_close h hi Pc.rdWoken; done)
  · inv_cases v s <;> flags <;> (inv_close h hi Pc.wr1Woken; done)
  · inv_cases v s <;> flags <;> (inv_close h hi Pc.wr2Woken; done)
  · inv_cases v s <;> flags <;> (inv_close h hi Pc.upWoken; done)

theorem Inv.step {v : Variant} {s s' : State} {a : Action} (h : Inv v s)
    (hs : step v s a = some s') : Inv v s' := by
  cases a with
  | spurious i => exact h.spurious hs
  | acquireRead i =>
    simp only [RWLock.step] at hs; split at hs
    · rename_i hi; simp only [Option.some.injEq] at hs; subst hs; exact h.acquireRead hi
    · simp at hs
  | acquireWrite i =>
    simp only [RWLock.step] at hs; split at hs
    · rename_i hi; simp only [Option.some.injEq] at hs; subst hs; exact h.acquireWrite hi
    · simp at hs
  | releaseRead i =>
    simp only [RWLock.step] at hs; split at hs
    · rename_i hi; simp only [Option.some.injEq] at hs; subst hs; exact h.releaseRead hi
    · simp at hs
  | releaseWrite i =>
    simp only [RWLock.step] at hs; split at hs
    · rename_i hi; simp only [Option.some.injEq] at hs; subst hs; exact h.releaseWrite hi
    · simp at hs
  | upgrade i =>
    simp only [RWLock.step] at hs; split at hs
    · rename_i hi; simp only [Option.some.injEq] at hs; subst hs; exact h.upgrade' hi
    · simp at hs
  | notify i =>
    simp only [RWLock.step] at hs; split at hs
    · rename_i hi; simp only [Option.some.injEq] at hs; subst hs; exact h.notify hi
    · simp at hs
  | resume i =>
    simp only [RWLock.step] at hs
    split at hs
    · rename_i hi; simp only [Option.some.injEq] at hs; subst hs; exact h.tryRead hi
    · rename_i hi; simp only [Option.some.injEq] at hs; subst hs; exact h.tryWrite1 hi
    · rename_i hi; simp only [Option.some.injEq] at hs; subst hs; exact h.resumeWrite2 hi
    · rename_i hi; simp only [Option.some.injEq] at hs; subst hs; exact h.tryUpgrade hi
    · simp at hs

theorem Inv.of_reachable {v : Variant} {n : Nat} {s : State} (h : Reachable v n s) : Inv v s := by
  induction h with
  | init => exact inv_init v n
  | step _ hs ih => exact ih.step hs

end Verif.RWLock
