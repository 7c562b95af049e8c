import Mathlib.Data.Int.Init

/-!
# Python evaluation helpers

Exceptions are values.  `Err` names the Python exception classes that the modelled code can raise.
-/

namespace Carbon

/-- Python exception classes that occur in the modelled code. -/
inductive Err where
  | assertion     -- `AssertionError`
  | zeroDiv       -- `ZeroDivisionError` (also `decimal.DivisionByZero`, `InvalidOperation`)
  | value         -- `ValueError`
  | type          -- `TypeError`
  | key           -- `KeyError`
  | index         -- `IndexError`
  | attr          -- `AttributeError`
  | custom (msg : String)  -- exception classes defined by the project
  deriving DecidableEq, Repr

/-- A Python computation that may raise. -/
abbrev Py (α : Type) := Except Err α

theorem Py.bind_eq_ok {α β : Type} {x : Py α} {f : α → Py β} {b : β} :
    (x >>= f) = .ok b ↔ ∃ a, x = .ok a ∧ f a = .ok b := by
  cases x with
  | error e => simp [bind, Except.bind]
  | ok a => simp [bind, Except.bind]

theorem Py.bind_eq_error {α β : Type} {x : Py α} {f : α → Py β} {e : Err} :
    (x >>= f) = .error e ↔ x = .error e ∨ ∃ a, x = .ok a ∧ f a = .error e := by
  cases x with
  | error e => simp [bind, Except.bind]
  | ok a => simp [bind, Except.bind]

@[simp] theorem Py.ok_bind {α β : Type} (a : α) (f : α → Py β) :
    ((Except.ok a : Py α) >>= f) = f a := rfl

@[simp] theorem Py.error_bind {α β : Type} (e : Err) (f : α → Py β) :
    ((Except.error e : Py α) >>= f) = .error e := rfl

@[simp] theorem Py.pure_eq_ok {α : Type} (a b : α) :
    ((pure a : Py α) = .ok b) ↔ a = b := by
  simp [pure, Except.pure]

end Carbon
