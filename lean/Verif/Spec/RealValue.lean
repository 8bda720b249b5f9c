import Verif.Model.Tree
import Verif.Model.Simplification
import Mathlib.Analysis.SpecialFunctions.Pow.Real
import Mathlib.Analysis.SpecialFunctions.Trigonometric.Inverse
import Mathlib.Analysis.SpecialFunctions.Trigonometric.Arctan
import Mathlib.Analysis.Calculus.Deriv.Basic

/-!
# Values of expressions over the real numbers

What an expression means in mathematics: operators denote partial functions, `e` is Euler's
number, `deriv(f, x)` the derivative of `f` by `x`.  Stated without the functions of the
program.
-/

namespace Verif
open Topology

/-- The value of a power: the base is positive, or zero with a positive exponent, or the
exponent is an integer and the base not zero. -/
def Power (x y v : ℝ) : Prop :=
  0 < x ∧ v = x ^ y ∨ x = 0 ∧ 0 < y ∧ v = 0 ∨ x ≠ 0 ∧ ∃ n : ℤ, y = n ∧ v = x ^ n

/-- `Exact name pl args v`: the operator with this name and placement has the value `v` at
`args`. -/
def Exact : String → Placement → List ℝ → ℝ → Prop
  | "$", .prefix, [x], v => v = x
  | "+", .prefix, [x], v => v = x
  | "-", .prefix, [x], v => v = -x
  | "%", .postfix, [x], v => v * 100 = x
  | "+", .infix, [x, y], v => v = x + y
  | "-", .infix, [x, y], v => v = x - y
  | "*", .infix, [x, y], v => v = x * y
  | "/", .infix, [x, y], v => y ≠ 0 ∧ v * y = x
  | "^", .infix, [x, y], v => Power x y v
  | "mod", .infix, [x, y], v => y ≠ 0 ∧ |v| < |y| ∧ 0 ≤ v * x ∧ ∃ k : ℤ, x = k * y + v
  | "exp", .function, [x], v => v = Real.exp x
  | "root", .function, [x, n], v => 0 < v ∧ n ≠ 0 ∧ v ^ n = x ∨ x = 0 ∧ 0 < n ∧ v = 0
  | "sqrt", .function, [x], v => 0 ≤ v ∧ v * v = x
  | "log", .function, [x, n], v => 0 < n ∧ n ≠ 1 ∧ n ^ v = x
  | "ln", .function, [x], v => Real.exp v = x
  | "sin", .function, [x], v => v = Real.sin x
  | "cos", .function, [x], v => v = Real.cos x
  | "tan", .function, [x], v => Real.cos x ≠ 0 ∧ v * Real.cos x = Real.sin x
  | "asin", .function, [x], v => -(Real.pi / 2) ≤ v ∧ v ≤ Real.pi / 2 ∧ Real.sin v = x
  | "acos", .function, [x], v => 0 ≤ v ∧ v ≤ Real.pi ∧ Real.cos v = x
  | "atan", .function, [x], v => -(Real.pi / 2) < v ∧ v < Real.pi / 2 ∧ Real.sin v = x * Real.cos v
  | "max", .function, l, v => v ∈ l ∧ ∀ y ∈ l, y ≤ v
  | "min", .function, l, v => v ∈ l ∧ ∀ y ∈ l, v ≤ y
  | "sum", .function, l, v => v = l.sum
  | "prod", .function, l, v => v = l.prod
  | "avg", .function, l, v => l ≠ [] ∧ v * l.length = l.sum
  | "count", .function, l, v => v = l.length
  | "e", .function, [], v => v = Real.exp 1
  | _, _, _, _ => False

/-- The operators `Exact` is about. -/
def explained : List (String × Placement) :=
  [("$", .prefix), ("+", .prefix), ("-", .prefix), ("%", .postfix), ("+", .infix), ("-", .infix),
   ("*", .infix), ("/", .infix), ("^", .infix), ("mod", .infix)] ++
  (["exp", "root", "sqrt", "log", "ln", "sin", "cos", "tan", "asin", "acos", "atan", "max", "min",
    "sum", "prod", "avg", "count", "e"].map fun n => (n, .function))

/-- An interpretation of operators, told apart by their ids: partial functions, and the id of
the derivative operator. -/
structure Interp where
  fn : Nat → List ℝ → ℝ → Prop
  deriv : Nat

/-- Operators that are only used in constraints. -/
def constraintOnly : List (String × Placement) :=
  [("==", .infix), ("!=", .infix), (">", .infix), ("<", .infix), (">=", .infix), ("<=", .infix),
   ("||", .infix), ("!", .prefix)] ++
  (["type", "equal", "CONST", "VAR", "OP", "TRUE", "FALSE"].map fun n => (n, .function))

/-- The operators of the rule files (see `propCtx`) mean what they should, those that are only
used in constraints have no value; all others are interpreted by some partial functions. -/
structure Interp.Right (I : Interp) : Prop where
  unique : ∀ k args v w, I.fn k args v → I.fn k args w → v = w
  exact : ∀ name pl, (name, pl) ∈ explained → ∀ c a o, propCtx = .ok c →
    c.lookup name.toList pl = .ok (some (a, o)) → ∀ args v, I.fn o.id args v ↔ Exact name pl args v
  silent : ∀ name pl, (name, pl) ∈ constraintOnly → ∀ c a o, propCtx = .ok c →
    c.lookup name.toList pl = .ok (some (a, o)) → ∀ args v, ¬ I.fn o.id args v
  derivative : ∀ c a o, propCtx = .ok c → c.lookup "deriv".toList .function = .ok (some (a, o)) →
    o.id = I.deriv

mutual
/-- `Val I t env v`: the expression `t` has the value `v` if the variables have the values
`env`. -/
def Val (I : Interp) : Tree ℝ → (Str → ℝ) → ℝ → Prop
  | .const c _, _, v => v = c
  | .var n _ _, env, v => v = env n
  | .op o cs _, env, v =>
    (o.id = I.deriv ∧ Slope I cs env v) ∨ (o.id ≠ I.deriv ∧ ∃ vs, Vals I cs env vs ∧ I.fn o.id vs v)
/-- The values of a list of expressions. -/
def Vals (I : Interp) : List (Tree ℝ) → (Str → ℝ) → List ℝ → Prop
  | [], _, vs => vs = []
  | c :: cs, env, vs => ∃ v rest, vs = v :: rest ∧ Val I c env v ∧ Vals I cs env rest
/-- `Slope I [f, x] env v`: near `env`, `f` is defined as a function of the variable `x`, and `v` is
its derivative. -/
def Slope (I : Interp) : List (Tree ℝ) → (Str → ℝ) → ℝ → Prop
  | [f, .var x _ _], env, v =>
    ∃ g : ℝ → ℝ, (∀ᶠ y in 𝓝 (env x), Val I f (Function.update env x y) (g y)) ∧ HasDerivAt g v (env x)
  | _, _, _ => False
end

/-! ## Constraints over the reals -/

open Classical in
/-- Operations on the reals that are used by constraints. -/
noncomputable def realDoubles : Doubles ℝ where
  ofNat n := n
  eq a b := decide (a = b)
  lt a b := decide (a < b)
  le a b := decide (a ≤ b)
  fabs a := |a|

open Classical in
/-- The program's check of constraints, for an evaluation `arith` of arithmetic operators.
(It never faults on well-formed constraints, see `C61_checker`.) -/
noncomputable def realChecker {ε : Type} (arith : Op → List ℝ → Except ε ℝ) (varErr : ε) (c : Tree ℝ) : Bool :=
  decide (propChecker realDoubles arith varErr c = .ok true)

/-- An evaluation of operators does not contradict their meaning. -/
def Follows {ε : Type} (I : Interp) (arith : Op → List ℝ → Except ε ℝ) : Prop :=
  ∀ o args v w, arith o args = .ok v → I.fn o.id args w → v = w

end Verif
