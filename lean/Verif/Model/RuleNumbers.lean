import Verif.Model.RuleParsing
import Mathlib.Algebra.Order.Ring.Rat

/-!
# Numbers in rules

The rule files are read with exact numbers instead of doubles.
-/

namespace Verif
variable {V : Type}

/-- The digits of a natural number. -/
def digitsNat (s : Str) : Option Nat :=
  s.foldlM (fun n c => if '0' ≤ c ∧ c ≤ '9' then some (10 * n + (c.toNat - 48)) else none) 0

/-- `try_parse_constant`, src/engine/parsing/parser.c:36-41, for numbers as they occur in the shipped rules:
digits, possibly with a point and further digits, stand for a decimal fraction. -/
def decimal (s : Str) : Option ℚ :=
  match s with
  | [] => none
  | c :: _ =>
    if '0' ≤ c ∧ c ≤ '9' then
      match strstr s ".".toList with
      | none => (digitsNat s).map fun n => (n : ℚ)
      | some k => do
        let a ← digitsNat (s.take k)
        let b ← digitsNat (s.drop (k + 1))
        some (a + b / 10 ^ (s.length - (k + 1)))
    else none

/-- `parse_easy` as called by src/engine/transformation/rule_parsing.c, in the context made by
`init_simplification` (simplification.c); numbers are taken to `V` by `f`. -/
def ruleParser (f : ℚ → V) (s : Str) : Res (Option (Tree V)) := do
  let c ← propCtx
  parseEasy c (fun s => (decimal s).map f) s

end Verif
