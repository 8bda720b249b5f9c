import Verif.Spec.RealValue
import Verif.Spec.Matching
import Verif.Model.Rewrite

/-!
# When a rewrite rule is right
-/

namespace Verif
open Topology

/-- Applied anywhere in an expression, the rule keeps every value the expression has. -/
def Improves (I : Interp) (rule : RewriteRule ℝ) : Prop :=
  ∀ (ε : Type) (arith : Op → List ℝ → Except ε ℝ) (ve : ε), Follows I arith →
  ∀ t t', applyRule realDoubles.eq (realChecker arith ve) rule t = .ok (some t') →
  ∀ env v, Val I t env v → Val I t' env v

/-- Applied anywhere in an expression, the rule does not change its value, where it has one
before and after. -/
def Agrees (I : Interp) (rule : RewriteRule ℝ) : Prop :=
  ∀ (ε : Type) (arith : Op → List ℝ → Except ε ℝ) (ve : ε), Follows I arith →
  ∀ t t', applyRule realDoubles.eq (realChecker arith ve) rule t = .ok (some t') →
  ∀ env v v', Val I t env v → Val I t' env v' → v = v'

/-- `w` is right for the derivative of `f` by `g`: if `f` is defined around a point as a function of
the variable `g`, and `w` has a value there, then `f` is differentiable and that is its
derivative. -/
def Differentiates (I : Interp) (f g w : Tree ℝ) : Prop :=
  ∀ x k i, g = .var x k i → ∀ env v,
    (∀ᶠ y in 𝓝 (env x), ∃ u, Val I f (Function.update env x y) u) → Val I w env v →
    Slope I [f, g] env v

/-- The rule replaces derivatives, and does so rightly if `P` holds of what is derived and the
variable. -/
def Derives (I : Interp) (P : Tree ℝ → Tree ℝ → Prop) (rule : RewriteRule ℝ) : Prop :=
  ∀ (ε : Type) (arith : Op → List ℝ → Except ε ℝ) (ve : ε), Follows I arith →
  ∀ t t', applyRule realDoubles.eq (realChecker arith ve) rule t = .ok (some t') →
  ∃ p o f g j w, Replaced t p (.op o [f, g] j) w t' ∧ o.id = I.deriv ∧ (P f g → Differentiates I f g w)

/-- A right step of the derivation: all values are kept, or a derivative is replaced rightly. -/
def RightStep (I : Interp) (t t' : Tree ℝ) : Prop :=
  (∀ env v, Val I t env v → Val I t' env v) ∨
  ∃ p o f g j w, Replaced t p (.op o [f, g] j) w t' ∧ o.id = I.deriv ∧ Differentiates I f g w

/-- All variables have the id 0, as those made by the parser. -/
inductive NoIds {V : Type} : Tree V → Prop where
  | const {v i} : NoIds (.const v i)
  | var {n i} : NoIds (.var n 0 i)
  | op {o cs i} : (∀ c ∈ cs, NoIds c) → NoIds (.op o cs i)

/-- Rules that change values: `(x^y)^z`, exponents of products that lose a factor,
`-(x+y) -> x-y`; and `deriv(x, z) -> 0` if applied to `deriv(z, z)`.  Ruleset and number of the
rule, counted from 0. -/
def unsoundRules : List (Nat × Nat) := [(3, 29), (3, 37), (5, 6), (1, 7)]

/-- Rules after which an expression may be undefined where it was defined before. -/
def lossyRules : List (Nat × Nat) :=
  [(3, 34), (3, 41), (5, 3), (5, 18), (1, 9), (1, 11), (1, 12), (1, 13), (1, 14), (1, 15), (1, 16),
   (1, 17), (1, 18), (1, 21)]

end Verif
