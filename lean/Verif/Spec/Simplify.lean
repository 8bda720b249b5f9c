import Verif.Spec.Matching
import Verif.Spec.Session
import Verif.Model.TreeUtil

/-!
# What simplification may do to an expression

Stated without the functions of the program.
-/

namespace Verif
variable {V : Type}

/-- Every operator with its number of operands satisfies `O`, every variable (name and id) `N`, and the
token number of every operator and constant `T`. -/
inductive Within (O : Op → Nat → Prop) (N : Str → Nat → Prop) (T : Nat → Prop) : Tree V → Prop where
  | const {v i} : T i → Within O N T (.const v i)
  | var {n x i} : N n x → Within O N T (.var n x i)
  | op {o cs i} : O o cs.length → T i → (∀ c ∈ cs, Within O N T c) → Within O N T (.op o cs i)

/-- The token number `i` belongs to an operator or a constant of `t`. -/
def Tree.HasTok (t : Tree V) (i : Nat) : Prop :=
  ∃ p s, (p, s) ∈ t.preorder [] ∧ s.tok = i ∧ ∀ n x j, s ≠ .var n x j

/-- The operator `o` occurs in `t`. -/
def Tree.HasOp (t : Tree V) (o : Op) : Prop :=
  ∃ p cs i, (p, Tree.op o cs i) ∈ t.preorder []

/-- `Explicit prime deriv z t u`: `u` is `t` with the shorthand `e'` of every derivative written out, as
`deriv(e, v)` where `v` is the only variable of `e`, or as `deriv(e, z)` if there is none. -/
inductive Explicit (prime deriv : Op) (z : Tree V) : Tree V → Tree V → Prop where
  | const {v i} : Explicit prime deriv z (.const v i) (.const v i)
  | var {n x i} : Explicit prime deriv z (.var n x i) (.var n x i)
  | op {o cs ds i} (hl : cs.length = ds.length) : o ≠ prime →
      (∀ k (hk : k < cs.length), Explicit prime deriv z cs[k] (ds[k]'(hl ▸ hk))) →
      Explicit prime deriv z (.op o cs i) (.op o ds i)
  | one {c d v i} : v ∈ c.varNames → (∀ n ∈ c.varNames, n = v) → Explicit prime deriv z c d →
      Explicit prime deriv z (.op prime [c] i) (.op deriv [d, .var v 0 0] i)
  | none {c d i} : c.varNames = [] → Explicit prime deriv z c d →
      Explicit prime deriv z (.op prime [c] i) (.op deriv [d, z] i)

/-- The derivative of which variable?  `e'` with two different variables in `e` stands in `t`, at the
token `i`. -/
def Ambiguous (prime : Op) (t : Tree V) (i : Nat) : Prop :=
  ∃ p c a b, (p, Tree.op prime [c] i) ∈ t.preorder [] ∧ a ∈ c.varNames ∧ b ∈ c.varNames ∧ a ≠ b

/-- Nothing is left to be evaluated: operations without variables are negated constants only. -/
inductive Evaluated (minus : Op) : Tree V → Prop where
  | const {v i} : Evaluated minus (.const v i)
  | var {n x i} : Evaluated minus (.var n x i)
  | negated {v i j} : Evaluated minus (.op minus [.const v i] j)
  | op {o cs i n} : n ∈ (Tree.op o cs i).varNames → (∀ c ∈ cs, Evaluated minus c) → Evaluated minus (.op o cs i)

end Verif
