/-!
# Outcomes of C++ code

The result of running a piece of C++: a value, a failed glog `CHECK` / `LOG(FATAL)` (the process
terminates), undefined behaviour, or a C++ exception leaving the function.
Models never totalise the last three away.
-/

namespace Verif

inductive Outcome (α : Type _) where
  /-- normal termination with a value -/
  | ok (a : α)
  /-- a glog `CHECK` failed (or `LOG(FATAL)`): the process aborts -/
  | abort
  /-- undefined behaviour of C++ -/
  | ub
  /-- a C++ exception leaves the function -/
  | exc
  deriving DecidableEq, Repr

namespace Outcome

variable {α β γ : Type _}

protected def bind : Outcome α → (α → Outcome β) → Outcome β
  | ok a, f => f a
  | abort, _ => abort
  | ub, _ => ub
  | exc, _ => exc

instance : Monad Outcome where
  pure := ok
  bind := Outcome.bind

@[simp] theorem pure_eq (a : α) : (pure a : Outcome α) = ok a := rfl
@[simp] theorem bind_ok (a : α) (f : α → Outcome β) : (ok a >>= f) = f a := rfl
@[simp] theorem bind_abort (f : α → Outcome β) : ((abort : Outcome α) >>= f) = abort := rfl
@[simp] theorem bind_ub (f : α → Outcome β) : ((ub : Outcome α) >>= f) = ub := rfl
@[simp] theorem bind_exc (f : α → Outcome β) : ((exc : Outcome α) >>= f) = exc := rfl

theorem bind_eq_ok {x : Outcome α} {f : α → Outcome β} {b : β} :
    (x >>= f) = ok b ↔ ∃ a, x = ok a ∧ f a = ok b := by
  cases x <;> simp [Bind.bind, Outcome.bind]

/-- glog `CHECK(c)`: abort the process if `c` is false. -/
def check (c : Bool) : Outcome Unit := if c then ok () else abort

@[simp] theorem check_true : check true = ok () := rfl
@[simp] theorem check_false : check false = abort := rfl

theorem check_eq_ok {c : Bool} : check c = ok () ↔ c = true := by
  cases c <;> simp [check]

/-- The outcome is a normal return. -/
def isOk : Outcome α → Bool
  | ok _ => true
  | _ => false

end Outcome
end Verif
