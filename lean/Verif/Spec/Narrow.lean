import Verif.Model.Tree

/-!
# Trees that fit into memory

The pointers to the children of a node stand side by side in memory, 8 bytes each, so
that no node has 2^62 children or more.
-/

namespace Verif
variable {V : Type}

mutual
/-- Every node has less than 2^62 children. -/
def Narrow : Tree V → Prop
  | .const _ _ => True
  | .var _ _ _ => True
  | .op _ cs _ => cs.length < 2 ^ 62 ∧ NarrowAll cs
/-- All of the trees are narrow. -/
def NarrowAll : List (Tree V) → Prop
  | [] => True
  | c :: cs => Narrow c ∧ NarrowAll cs
end

end Verif
