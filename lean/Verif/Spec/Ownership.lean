import Verif.Model.NodeHeap

/-!
# Who owns which node

A tree in memory: which addresses it occupies, and what it means that the tree in
some place has been exchanged for another one without losing or touching anything
else.  Nothing here refers to the functions that copy, free or replace trees.
-/

namespace Verif.OwnershipSpec
variable {V : Type}

mutual
/-- In the memory `g` the node at `p` is the root of the tree `t`; `S` are the
addresses of its nodes. -/
def Holds (g : Nat → Option (Cell V)) : Tree V → Nat → List Nat → Prop
  | .const v i, p, S => g p = some (.const v i) ∧ S = [p]
  | .var n x i, p, S => g p = some (.var n x i) ∧ S = [p]
  | .op o cs i, p, S => ∃ ps T, g p = some (.op o (ps.map some) i) ∧ HoldsAll g cs ps T ∧ S = p :: T
/-- The same for several trees with their roots `ps`. -/
def HoldsAll (g : Nat → Option (Cell V)) : List (Tree V) → List Nat → List Nat → Prop
  | [], ps, S => ps = [] ∧ S = []
  | c :: cs, ps, S => ∃ p qs S1 S2, ps = p :: qs ∧ S = S1 ++ S2 ∧ Holds g c p S1 ∧ HoldsAll g cs qs S2
end

/-- From the memory `g` to the memory `h` the nodes `S` of a tree have given way to
the nodes `T` of the tree `t` at `q`:
`T` was free or belonged to the old tree, what is not in use any more is free, and
no other address has changed. -/
structure Exchanged (g h : Nat → Option (Cell V)) (S : List Nat) (t : Tree V) (q : Nat)
    (T : List Nat) : Prop where
  holds : Holds h t q T
  nodup : T.Nodup
  fresh : ∀ a ∈ T, a ∈ S ∨ g a = none
  freed : ∀ a ∈ S, a ∉ T → h a = none
  frame : ∀ a, a ∉ S → a ∉ T → h a = g a

/-- The tree with the nodes `S` in the place `slot` of the memory `m` has been exchanged for
the tree `t`: apart from that only the pointer in `slot` has changed. -/
def Becomes (m : Mem V) (slot : Slot) (S : List Nat) (t : Tree V) (m' : Mem V) : Prop :=
  ∃ q T m1, m.assign slot (some q) = .ok m1 ∧ Exchanged m1.get m'.get S t q T ∧ m'.vars = m1.vars

/-- The tree `t` with the nodes `S` is in the place `slot`, and this place is not part of
the tree itself. -/
def At (m : Mem V) (slot : Slot) (t : Tree V) (S : List Nat) : Prop :=
  ∃ p, m.deref slot = .ok (some p) ∧ Holds m.get t p S ∧ S.Nodup ∧
    ∀ a k, slot = .child a k → a ∉ S

/-- The place of the node a path leads to, from the tree in `slot`. -/
def PlaceOf (m : Mem V) : Slot → Path → Slot → Prop
  | slot, [], sl => sl = slot
  | slot, k :: path, sl => ∃ q, m.deref slot = .ok (some q) ∧ PlaceOf m (.child q k) path sl

/-- The places `ss` hold the trees `us`. -/
def HeldAt (m : Mem V) : List Slot → List (Tree V) → Prop
  | [], us => us = []
  | s :: ss, us => ∃ u us' x X, us = u :: us' ∧ m.deref s = .ok (some x) ∧ Holds m.get u x X ∧
      HeldAt m ss us'

end Verif.OwnershipSpec
