import Verif.Model.SimplifyHeap
import Verif.Spec.Ownership

/-!
# Rules in memory, and searching a tree in memory

What it means that rules are stored in memory, and that a search in memory answers what a search in
the tree answers.
-/

namespace Verif.MemorySpec
open OwnershipSpec
variable {V : Type}

/-- The places `ss` are those of the trees `us`, parts of the tree `s` in the place `slot`. -/
def Inside (m : Mem V) (slot : Slot) (s : Tree V) : List Slot → List (Tree V) → Prop
  | [], us => us = []
  | sl :: ss, us => ∃ u us' q, us = u :: us' ∧ s.deref q = some u ∧ PlaceOf m slot q sl ∧ Inside m slot s ss us'

/-- `F` finds in memory what `findMatching` finds in the tree that is there: the place of the same
node, and places of the same trees inside of it. -/
def Finds (eqV : V → V → Bool) (F : Finder V) : Prop :=
  ∀ (checker : Tree V → Bool) (pat : Pattern V) (m : Mem V) (root : Slot) (t : Tree V) (S : List Nat),
    At m root t S →
    (findMatching eqV checker pat t [] = .ok none → F checker pat m root = .ok none) ∧
    ∀ path mt s, findMatching eqV checker pat t [] = .ok (some (path, mt)) → t.deref path = some s →
      ∃ matched sm, F checker pat m root = .ok (some (matched, sm)) ∧ PlaceOf m root path matched ∧
        ∀ id, Inside m matched s (sm id) ((mt id).getD [])

/-- The rules in memory are the rules given as values. -/
def Stored (g : Nat → Option (Cell V)) : List (RewriteRule V) → List (MemRule V) → Prop
  | [], l => l = []
  | r :: rs, l => ∃ a l' R, l = ⟨r.pattern, a⟩ :: l' ∧ Holds g r.after a R ∧ Stored g rs l'

/-- The same for all that `simplify` uses. -/
structure StoredSimp (g : Nat → Option (Cell V)) (s : Simp V) (ms : MemSimp V) : Prop where
  initialized : ms.initialized = s.initialized
  rulesets : ∀ k, Stored g (s.rulesets k) (ms.rulesets k)
  before : ms.derivBefore = s.derivBefore
  malformed : ms.malformedDeriv = s.malformedDeriv
  after : (s.derivAfter = none ∧ ms.derivAfter = none) ∨
    ∃ t a R, s.derivAfter = some t ∧ ms.derivAfter = some a ∧ Holds g t a R

/-- The memory without the nodes `S`. -/
def rest (g : Nat → Option (Cell V)) (S : List Nat) : Nat → Option (Cell V) :=
  fun a => if a ∈ S then none else g a

/-- The error without the token index. -/
def errorOf {ε α : Type} : Except (SimpErr ε × Nat) α → Option (SimpErr ε)
  | .error e => some e.1
  | .ok _ => none

/-- What an evaluation adds to the history: nothing after an error, and only constants otherwise. -/
def outcome {ε : Type} : Except (SimpErr ε × Nat) (Tree V) → Option (Option V)
  | .error _ => none
  | .ok (.const v _) => some (some v)
  | .ok _ => some none

end Verif.MemorySpec
