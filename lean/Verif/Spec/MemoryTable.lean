import Verif.Model.TableHeap
import Verif.Spec.MemoryProgram

/-!
# The table command with trees as values

The same inputs, the trees being values.
-/

namespace Verif.MemorySpec
variable {V ε : Type}

/-- The result of `tree_reduce`. -/
def valueReduce (K : Machine V ε) (t : Tree V) : Except (SimpErr ε × Nat) V :=
  match treeReduce K.arith K.varErr t [] with
  | .ok v => .ok v
  | .error e => .error (.listener e.1, 0)

/-- The program for the table command: no files and no rules to load. -/
def tableProgram (K : Machine V ε) (simp : Simp V) (strtod : Str → Option V) (A : Stepping V) :
    Program V (SimpErr ε × Nat) Unit where
  toClient := valueClient K simp strtod
  reduce _ _ t := .ok ((), valueReduce K t)
  zero := K.dbl.ofNat 0
  lt := K.dbl.lt
  le := K.dbl.le
  add := A.add
  neg := A.neg
  rounds := A.rounds
  files _ := none
  initSimp _ _ _ := .ub

/-- One input. -/
def entryOn (K : Machine V ε) (prop : Ctx) (strtod : Str → Option V) (A : Stepping V) (s : ValueProgram V) :
    Entry → Out (ValueProgram V)
  | .other i => programInputOn K prop strtod s i
  | .table input => do
    let r ← tableExec (tableProgram K s.simp strtod A) s.session input
    pure { s with session := r.1 }

/-- One input after the other. -/
def entriesOn (prop : Ctx) (strtod : Str → Option V) (A : Stepping V) :
    ValueProgram V → List (Machine V ε × Entry) → Out (ValueProgram V)
  | s, [] => .ok s
  | s, (K, i) :: rest => do
    let s' ← entryOn K prop strtod A s i
    entriesOn prop strtod A s' rest

/-- The files that are loaded are well-formed. -/
def WellFormedEntry (prop : Ctx) (strtod : Str → Option V) : Entry → Prop
  | .other i => WellFormed prop strtod i
  | .table _ => True

end Verif.MemorySpec
