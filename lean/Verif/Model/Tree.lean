import Verif.Model.Operator

/-!
# Expression trees (src/engine/tree/node.h, node.c)
-/

namespace Verif

/-- `Node`, src/engine/tree/node.c:6-27, with the kinds of node.h:5-9.  `V` is
the type of constant values (double in the code).  An operator node points to
its operator in the context; the model stores the operator itself.  `tok` is
`token_index`, `id` the id of a variable node. -/
inductive Tree (V : Type) where
  | const (v : V) (tok : Nat)
  | var (name : Str) (id : Nat) (tok : Nat)
  | op (o : Op) (children : List (Tree V)) (tok : Nat)
deriving Repr

namespace Tree
variable {V : Type}

/-- Induction over trees where the hypothesis is available for each child. -/
theorem induct {P : Tree V → Prop} (hc : ∀ v tok, P (.const v tok))
    (hv : ∀ name id tok, P (.var name id tok))
    (ho : ∀ o cs tok, (∀ c ∈ cs, P c) → P (.op o cs tok)) (t : Tree V) : P t :=
  Tree.rec (motive_1 := P) (motive_2 := fun cs => ∀ c ∈ cs, P c) hc hv
    (fun o cs tok h => ho o cs tok h) (fun _ h => nomatch h)
    (fun _ _ h1 h2 c hc => by
      rcases List.mem_cons.mp hc with rfl | hc
      · exact h1
      · exact h2 c hc) t

mutual
/-- Decidable equality of trees (for running concrete examples). -/
def decEq [DecidableEq V] : (a b : Tree V) → Decidable (a = b)
  | .const v i, .const w j =>
    if h : v = w ∧ i = j then isTrue (by rw [h.1, h.2])
    else isFalse (by intro e; cases e; exact h ⟨rfl, rfl⟩)
  | .var n x i, .var m y j =>
    if h : n = m ∧ x = y ∧ i = j then isTrue (by rw [h.1, h.2.1, h.2.2])
    else isFalse (by intro e; cases e; exact h ⟨rfl, rfl, rfl⟩)
  | .op o cs i, .op p ds j =>
    if h : o = p ∧ i = j then
      match decEqList cs ds with
      | isTrue hc => isTrue (by rw [h.1, h.2, hc])
      | isFalse hc => isFalse (by intro e; cases e; exact hc rfl)
    else isFalse (by intro e; cases e; exact h ⟨rfl, rfl⟩)
  | .const .., .var .. => isFalse (by intro e; cases e)
  | .const .., .op .. => isFalse (by intro e; cases e)
  | .var .., .const .. => isFalse (by intro e; cases e)
  | .var .., .op .. => isFalse (by intro e; cases e)
  | .op .., .const .. => isFalse (by intro e; cases e)
  | .op .., .var .. => isFalse (by intro e; cases e)

def decEqList [DecidableEq V] : (a b : List (Tree V)) → Decidable (a = b)
  | [], [] => isTrue rfl
  | [], _ :: _ => isFalse (by intro e; cases e)
  | _ :: _, [] => isFalse (by intro e; cases e)
  | a :: as, b :: bs =>
    match decEq a b with
    | isTrue h =>
      match decEqList as bs with
      | isTrue h' => isTrue (by rw [h, h'])
      | isFalse h' => isFalse (by intro e; cases e; exact h' rfl)
    | isFalse h => isFalse (by intro e; cases e; exact h rfl)
end

instance [DecidableEq V] : DecidableEq (Tree V) := decEq

end Tree
end Verif
