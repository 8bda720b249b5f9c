import Verif.Model.Context

/-!
# Contexts with operators that take operands
-/

namespace Verif.OperandsSpec

/-- Operators have operands: at least one for prefix and postfix operators, two for infix
operators. -/
def HasOperands (o : Op) : Prop :=
  match o.placement, o.arity with
  | .prefix, .fixed n => 1 ≤ n
  | .postfix, .fixed n => 1 ≤ n
  | .infix, .fixed n => 2 ≤ n
  | _, _ => True

/-- Operators the lookup returns have their placement and operands. -/
structure Usual (E : Env) : Prop where
  op : ∀ tok pl o, E.lookup tok pl = some o → o.placement = pl ∧ HasOperands o

end Verif.OperandsSpec
