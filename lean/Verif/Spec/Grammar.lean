import Verif.Model.Context
import Verif.Model.Tree
import Verif.Model.Str

/-!
# Grammar of expressions with precedence and associativity

`Expr E strtod ts t le rs`: the numbered tokens `ts` spell the tree `t`.
`le` are the operators that read an operand on their left and are open to the
left edge of `ts` (an operator written before `ts` could take their left operand
away); `rs` are the operators and functions whose last operand ends at the right
edge of `ts` (an operator written after `ts` could take that operand away).
Parentheses close both edges.

An operator `y` takes the operand between `x` and `y` from `x` only if it does
not close `x`; `y` closes `x` if `y` binds weaker, or equally strong and groups
to the left.
-/

namespace Verif

/-- `y`, written after an operand of `x`, ends the operand of `x`: `(… x a) y …`. -/
def Closes (y x : Op) : Prop := y.prec < x.prec ∨ (y.prec = x.prec ∧ y.assoc = .left)

/-- A token that is neither a space nor a parenthesis nor a delimiter. -/
def Plain (tok : Str) : Prop :=
  headIs isSpace tok = false ∧ isOpeningParen tok = false ∧ isClosingParen tok = false ∧
    isDelimiter tok = false

mutual
/-- An expression; numbers, variables, constants, function calls, parentheses,
prefix, infix and postfix operators. -/
inductive Expr {V : Type} (E : Env) (strtod : Str → Option V) :
    List (Nat × Str) → Tree V → List Op → List Op → Prop where
  | number {i tok v} : Plain tok → E.lookup tok .function = none → E.lookup tok .prefix = none →
      strtod tok = some v → Expr E strtod [(i, tok)] (.const v i) [] []
  | variable {i tok} : Plain tok → E.lookup tok .function = none → E.lookup tok .prefix = none →
      strtod tok = none → E.lookup tok .infix = none → E.lookup tok .postfix = none →
      headIs isLetter tok = true → Expr E strtod [(i, tok)] (.var tok 0 i) [] []
  | constant {i tok f} : Plain tok → E.lookup tok .function = some f → f.arity = .fixed 0 →
      Expr E strtod [(i, tok)] (.op f [] i) [] []
  | call0 {i tok f j p k q} : Plain tok → E.lookup tok .function = some f → f.arity = .dyn →
      isOpeningParen p = true → isClosingParen q = true →
      Expr E strtod [(i, tok), (j, p), (k, q)] (.op f [] i) [] [f]
  | call {i tok f j p k q ts as} : Plain tok → E.lookup tok .function = some f →
      f.arity = .dyn ∨ f.arity = .fixed as.length →
      isOpeningParen p = true → Args E strtod ts as → isClosingParen q = true →
      Expr E strtod ((i, tok) :: (j, p) :: ts ++ [(k, q)]) (.op f as i) [] [f]
  | paren {j p k q ts t le rs} : isOpeningParen p = true → Expr E strtod ts t le rs →
      isClosingParen q = true → Expr E strtod ((j, p) :: ts ++ [(k, q)]) t [] []
  | prefix {i tok o ts t le rs} : Plain tok → E.lookup tok .function = none →
      E.lookup tok .prefix = some o → Expr E strtod ts t le rs → (∀ y ∈ le, ¬ Closes y o) →
      Expr E strtod ((i, tok) :: ts) (.op o [t] i) [] (o :: rs)
  | infix {i tok o ta a lea rsa tb b leb rsb} : Plain tok → E.lookup tok .infix = some o →
      Expr E strtod ta a lea rsa → (∀ x ∈ rsa, Closes o x) →
      Expr E strtod tb b leb rsb → (∀ y ∈ leb, ¬ Closes y o) →
      Expr E strtod (ta ++ (i, tok) :: tb) (.op o [a, b] i) (lea ++ [o]) (o :: rsb)
  | postfix {i tok o ta a lea rsa} : Plain tok → E.lookup tok .infix = none →
      E.lookup tok .postfix = some o → Expr E strtod ta a lea rsa → (∀ x ∈ rsa, Closes o x) →
      Expr E strtod (ta ++ [(i, tok)]) (.op o [a] i) (lea ++ [o]) []
/-- Arguments separated by delimiters. -/
inductive Args {V : Type} (E : Env) (strtod : Str → Option V) :
    List (Nat × Str) → List (Tree V) → Prop where
  | one {ts t le rs} : Expr E strtod ts t le rs → Args E strtod ts [t]
  | more {ts t le rs i d ts' as} : Expr E strtod ts t le rs → isDelimiter d = true →
      Args E strtod ts' as → Args E strtod (ts ++ (i, d) :: ts') (t :: as)
end

/-- No closing parenthesis stands directly after the name of an infix or prefix
operator. -/
def NoDangling (E : Env) (toks : List Str) : Prop :=
  ∀ a x c b, toks = a ++ x :: c :: b → isClosingParen c = true →
    E.lookup x .infix = none ∧ E.lookup x .prefix = none

end Verif
