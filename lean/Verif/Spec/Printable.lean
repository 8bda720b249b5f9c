import Verif.Spec.Grammar

/-!
# Trees that can be written down

What must hold of a context and of a tree for its text to mean anything to the
parser: names resolve, arities fit, constants have a readable rendering.
-/

namespace Verif
variable {V : Type}

/-- A tree without token numbers and variable ids. -/
def Tree.shape : Tree V → Tree V
  | .const v _ => .const v 0
  | .var n _ _ => .var n 0 0
  | .op o cs _ => .op o (cs.map Tree.shape) 0

/-- Infix operators of one precedence group the same way, postfix operators group
to the left, and none shares its precedence with an infix operator that groups to
the right. -/
structure PrecOk (E : Env) : Prop where
  infix_ : ∀ s o s' o', E.lookup s .infix = some o → E.lookup s' .infix = some o' →
    o.prec = o'.prec → o.assoc = o'.assoc
  post : ∀ s o, E.lookup s .postfix = some o → o.assoc = .left
  clash : ∀ s o s' o', E.lookup s .postfix = some o → E.lookup s' .infix = some o' →
    o'.assoc = .right → o.prec ≠ o'.prec

/-- `fmt` renders constants. -/
inductive Printable (E : Env) (strtod : Str → Option V) (fmt : V → Str) : Tree V → Prop where
  | const {v i} : Plain (fmt v) → E.lookup (fmt v) .function = none →
      E.lookup (fmt v) .prefix = none → strtod (fmt v) = some v → Printable E strtod fmt (.const v i)
  | var {n x i} : Plain n → E.lookup n .function = none → E.lookup n .prefix = none →
      strtod n = none → E.lookup n .infix = none → E.lookup n .postfix = none →
      headIs isLetter n = true → Printable E strtod fmt (.var n x i)
  | op {o cs i} : Plain o.name → E.lookup o.name o.placement = some o →
      (o.arity = .dyn ∨ o.arity = .fixed cs.length) →
      (o.placement = .prefix → E.lookup o.name .function = none ∧ '%' ∉ o.name) →
      (o.placement = .postfix → E.lookup o.name .infix = none) →
      (∀ c ∈ cs, Printable E strtod fmt c) → Printable E strtod fmt (.op o cs i)

end Verif
