import Verif.Spec.Session
import Verif.Model.Session

/-!
# Operators that trees point to

A node of a tree holds a pointer to an operator (`get_op`, src/engine/tree/node.c), which is the payload of a node of
the list of operators of a context; it is freed when the operator is deleted
(src/engine/parsing/context.c:108-122).
-/

namespace Verif.OperatorSpec
open Verif
variable {V : Type}

/-- `o` is an operator of the context now: it has an address. -/
def Alive (c : Ctx) (o : Op) : Prop := ∃ a, (a, o) ∈ c.ops

/-- No node of the tree points to an operator that has been freed. -/
def Valid (c : Ctx) (t : Tree V) : Prop := AllOps (fun o _ => Alive c o) t

/-- The tree does not point to `o`. -/
def Avoids (o : Op) (t : Tree V) : Prop := AllOps (fun q _ => q ≠ o) t

end Verif.OperatorSpec
