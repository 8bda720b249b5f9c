import Verif.Model.LinkedList

/-!
# What linked lists stand for

A sequence of elements, each with the address of its node.
-/

namespace Verif.ChainSpec
variable {α : Type}

/-- `Step L c L'`: the operation `c` turns the sequence `L` into `L'`; a new node
gets an address that is not in use. -/
inductive Step : List (Nat × α) → LList.Cmd α → List (Nat × α) → Prop
  | append (L x a) : a ∉ L.map Prod.fst → Step L (.append x a) (L ++ [(a, x)])
  | first (L x a) : a ∉ L.map Prod.fst → Step L (.insertAfter none x a) ((a, x) :: L)
  | after (A p B x a) : a ∉ (A ++ p :: B).map Prod.fst →
      Step (A ++ p :: B) (.insertAfter (some p.1) x a) (A ++ p :: (a, x) :: B)
  | insertAt (A B x a) : a ∉ (A ++ B).map Prod.fst → Step (A ++ B) (.insertAt A.length x a) (A ++ (a, x) :: B)
  | deleteNode (A p B) : Step (A ++ p :: B) (.deleteNode p.1) (A ++ B)
  | deleteAt (A p B) : Step (A ++ p :: B) (.deleteAt A.length) (A ++ B)

/-- A history of operations. -/
inductive Run : List (Nat × α) → List (LList.Cmd α) → List (Nat × α) → Prop
  | nil (L) : Run L [] L
  | cons {L c L' cs L''} : Step L c L' → Run L' cs L'' → Run L (c :: cs) L''

/-- Following `step` from the node at `p` one meets exactly the nodes `L`, then NULL. -/
inductive Chain (h : Heap α) (step : ListNode α → Option Nat) : Option Nat → List (Nat × α) → Prop
  | nil : Chain h step none []
  | cons {p n L} : h p = some n → Chain h step (step n) L → Chain h step (some p) ((p, n.data) :: L)

end Verif.ChainSpec
