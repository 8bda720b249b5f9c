import Verif.Model.Context
import Verif.Model.Tree
import Verif.Model.Str

namespace Verif
variable {V : Type}

/-- Trees over a context of the calculator whose text is unproblematic: constants
are rendered with digits and dots only and read back, variable names are words
that mean nothing else, operators belong to the context and have the right number
of operands. -/
inductive ArithTree (E : Env) (strtod : Str → Option V) (fmt : V → Str) : Tree V → Prop where
  | const {v i} : fmt v ≠ [] → (∀ ch ∈ fmt v, isDigit ch = true) → strtod (fmt v) = some v →
      ArithTree E strtod fmt (.const v i)
  | var {n x i} : n ≠ [] → (∀ ch ∈ n, isLetter ch = true) → E.lookup n .function = none →
      E.lookup n .infix = none → strtod n = none → ArithTree E strtod fmt (.var n x i)
  | op {o cs i} : E.lookup o.name o.placement = some o →
      (o.arity = .dyn ∨ o.arity = .fixed cs.length) →
      (∀ c ∈ cs, ArithTree E strtod fmt c) → ArithTree E strtod fmt (.op o cs i)

end Verif
