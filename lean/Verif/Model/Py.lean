/-!
# Exceptions of the modelled Python code

Exceptions are values.  `outOfFuel` is not a Python exception: it is returned by
functions which take a fuel argument when the fuel is used up.  A function which
returns `outOfFuel` for *every* amount of fuel never returns in Python (in
CPython: it hangs, or dies with `RecursionError` if the loop is a recursion).
-/
namespace Verif

/-- Exceptions raised by the modelled code, as values. -/
inductive PyErr where
  | assertion
  | typeError
  | valueError
  | keyError
  | indexError
  | attributeError
  | nameError
  | unboundLocal
  | zeroDivision
  | stopIteration
  | runtimeError
  | outOfFuel
  deriving DecidableEq, Repr

/-- Result of a Python call. -/
abbrev Py (α : Type _) := Except PyErr α

/-- Python `assert`. -/
def pyAssert (b : Bool) : Py Unit := if b then .ok () else .error .assertion

/-- Decidable equality of results, used to evaluate concrete examples. -/
instance instDecidableEqPy {α : Type _} [DecidableEq α] : DecidableEq (Py α)
  | .ok a, .ok b => if h : a = b then isTrue (by rw [h]) else isFalse (by simp [h])
  | .error a, .error b => if h : a = b then isTrue (by rw [h]) else isFalse (by simp [h])
  | .ok _, .error _ => isFalse (by simp)
  | .error _, .ok _ => isFalse (by simp)

@[simp] theorem pyAssert_true : pyAssert true = .ok () := rfl
@[simp] theorem pyAssert_false : pyAssert false = .error .assertion := rfl

theorem pyAssert_eq_ok {b : Bool} {u : Unit} : pyAssert b = .ok u ↔ b = true := by
  cases b <;> simp [pyAssert]

@[simp] theorem py_bind_ok {α β : Type _} (a : α) (f : α → Py β) :
    ((Except.ok a : Py α) >>= f) = f a := rfl
@[simp] theorem py_bind_error {α β : Type _} (e : PyErr) (f : α → Py β) :
    ((Except.error e : Py α) >>= f) = .error e := rfl
@[simp] theorem py_pure {α : Type _} (a : α) : (pure a : Py α) = .ok a := rfl
theorem py_bind_eq_ok {α β : Type _} {x : Py α} {f : α → Py β} {b : β} :
    (x >>= f) = .ok b ↔ ∃ a, x = .ok a ∧ f a = .ok b := by
  cases x <;> simp

end Verif
