/-!
# Basics of the model

Outcomes of C functions and C strings.
-/

namespace Verif

/-- A C string without its terminating NUL.  Characters with code >= 128 stand
for bytes that are negative as `char`; no predicate of the program treats them
specially. -/
abbrev Str := List Char

/-- Outcome of a C function.
* `ok a`    – the function returns `a`;
* `defect`  – `software_defect` was called (src/util/console_util.c:155-163): the
  program prints a message and exits;
* `ub`      – undefined behaviour was reached (NULL dereference, access outside
  of an object, use of an uninitialised value). -/
inductive Res (α : Type) where
  | ok (a : α)
  | defect
  | ub
deriving DecidableEq, Repr

namespace Res

/-- Sequencing: a function continues only after a normal return. -/
def bind {α β : Type} : Res α → (α → Res β) → Res β
  | ok a, f => f a
  | defect, _ => defect
  | ub, _ => ub

instance : Monad Res where
  pure := ok
  bind := bind

@[simp] theorem pure_eq {α : Type} (a : α) : (pure a : Res α) = ok a := rfl
@[simp] theorem bind_ok {α β : Type} (a : α) (f : α → Res β) : (ok a >>= f) = f a := rfl
@[simp] theorem bind_defect {α β : Type} (f : α → Res β) : ((defect : Res α) >>= f) = defect := rfl
@[simp] theorem bind_ub {α β : Type} (f : α → Res β) : ((ub : Res α) >>= f) = ub := rfl

theorem bind_eq_ok {α β : Type} {x : Res α} {f : α → Res β} {b : β} :
    (x >>= f) = ok b ↔ ∃ a, x = ok a ∧ f a = ok b := by
  cases x <;> simp

/-- The outcome is a normal return. -/
def isOk {α : Type} : Res α → Bool
  | ok _ => true
  | _ => false

end Res

end Verif
