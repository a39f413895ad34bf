import Verif.RWLock.Model

/-!
# Inductive invariant of the reader/writer mutexes
-/

namespace Verif.RWLock

theorem count_set {α : Type} [DecidableEq α] : ∀ {l : List α} {i : Nat} {a : α} (b p : α),
    l[i]? = some a →
    (l.set i b).count p + (if a = p then 1 else 0) = l.count p + (if b = p then 1 else 0)
  | [], _, _, _, _, h => by simp at h
  | x :: l, 0, a, b, p, h => by
    simp at h; subst h
    simp [List.count_cons]; omega
  | x :: l, i + 1, a, b, p, h => by
    simp at h
    have := count_set (l := l) b p h
    simp [List.count_cons]; omega

theorem count_wakeR (l : List Pc) (p : Pc) : (l.map wakeR).count p =
    match p with
    | .wr1Asleep => 0
    | .upAsleep => 0
    | .wr1Woken => l.count .wr1Woken + l.count .wr1Asleep
    | .upWoken => l.count .upWoken + l.count .upAsleep
    | p => l.count p := by
  induction l with
  | nil => cases p <;> rfl
  | cons x l ih =>
    rw [List.map_cons, List.count_cons, ih]
    cases p <;> cases x <;> simp [wakeR, List.count_cons] <;> omega

theorem count_wakeW (l : List Pc) (p : Pc) : (l.map wakeW).count p =
    match p with
    | .rdAsleep => 0
    | .wr2Asleep => 0
    | .rdWoken => l.count .rdWoken + l.count .rdAsleep
    | .wr2Woken => l.count .wr2Woken + l.count .wr2Asleep
    | p => l.count p := by
  induction l with
  | nil => cases p <;> rfl
  | cons x l ih =>
    rw [List.map_cons, List.count_cons, ih]
    cases p <;> cases x <;> simp [wakeW, List.count_cons] <;> omega

/-- The invariant, in terms of the number of threads at each location. -/
structure Inv (v : Variant) (s : State) : Prop where
  readers : s.numReaders =
    s.threads.count .reading + s.threads.count .upAsleep + s.threads.count .upWoken
  upgrade : (if s.pendingUpgrade = true then 1 else 0) =
    s.threads.count .upAsleep + s.threads.count .upWoken
  writer : (if s.currentWriter = true then 1 else 0) = s.threads.count .writing
  excl : s.currentWriter = true → s.numReaders = 0
  pendR : s.pendingReaders =
    if v = .base then s.threads.count .rdAsleep + s.threads.count .rdWoken else 0
  pendW : s.numPendingWriters =
    if v = .base then s.threads.count .wr1Asleep + s.threads.count .wr1Woken +
      s.threads.count .wr2Asleep + s.threads.count .wr2Woken else 0
  second : v = .base → 0 < s.threads.count .wr2Asleep + s.threads.count .wr2Woken →
    s.numReaders ≤ if s.pendingUpgrade = true then 1 else 0
  rdA : 0 < s.threads.count .rdAsleep →
    (v = .base ∧ (0 < s.numPendingWriters ∨ s.pendingUpgrade = true)) ∨ s.currentWriter = true ∨
      0 < s.threads.count .relNotify
  wr1A : 0 < s.threads.count .wr1Asleep →
    (if s.pendingUpgrade = true then 1 else 0) < s.numReaders
  wr2A : 0 < s.threads.count .wr2Asleep →
    s.pendingUpgrade = true ∨ s.currentWriter = true ∨ 0 < s.threads.count .relNotify
  upA : 0 < s.threads.count .upAsleep → 1 < s.numReaders

theorem inv_init (v : Variant) (n : Nat) : Inv v (init n) := by
  constructor <;> simp [init, List.count_replicate]

end Verif.RWLock
