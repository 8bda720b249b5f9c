import Verif.Model.DefinitionHeap
import Verif.Spec.MemoryRules

/-!
# The nodes of a session

Which nodes in memory belong to the functions of a session, and the same inputs to a session
whose trees are values.
-/

namespace Verif.MemorySpec
open OwnershipSpec
variable {V ε : Type}

/-- In the memory `g` the rules of the functions are `fs`; `S` are the addresses of all of their nodes. -/
def Owned (g : Nat → Option (Cell V)) : List (RewriteRule V) → List MemFun → List Nat → Prop
  | [], fs, S => fs = [] ∧ S = []
  | r :: rs, fs, S => ∃ f fs' P R S', fs = f :: fs' ∧ S = P ++ (R ++ S') ∧
      (r.pattern.constraints = fun _ => []) ∧ OwnershipSpec.Holds g r.pattern.tree f.left P ∧
      OwnershipSpec.Holds g r.after f.after R ∧ Owned g rs fs' S'

/-- The memory `g` consists of `base` and of the nodes of the rules of the functions; every node belongs to
one rule only. -/
structure Keeps (base : Nat → Option (Cell V)) (rs : List (RewriteRule V)) (fs : List MemFun)
    (g : Nat → Option (Cell V)) (S : List Nat) : Prop where
  owned : Owned g rs fs S
  nodup : S.Nodup
  new : ∀ a ∈ S, base a = none
  old : ∀ a, a ∉ S → g a = base a

/-- The session `s` with its trees in the memory of `sm`, which otherwise is `base`. -/
structure InMemory (base : Nat → Option (Cell V)) (s : Session V Unit) (sm : MemSession V) (S : List Nat) : Prop where
  ctx : sm.ctx = s.ctx
  hist : sm.hist = s.hist
  keeps : Keeps base s.funs sm.funs sm.mem.get S

/-- A session without anything but the arithmetic, the rules for simplification and `strtod`. -/
def valueClient (K : Machine V ε) (simp : Simp V) (strtod : Str → Option V) :
    Client V (SimpErr ε × Nat) Unit where
  strtod := strtod
  eqV := K.dbl.eq
  simp _ _ t := do
    let r ← K.simplify simp t
    pure ((), r)
  fuel := K.fuel

/-- One input. -/
def inputOn (K : Machine V ε) (simp : Simp V) (strtod : Str → Option V) (s : Session V Unit) :
    MemInput → Out (Session V Unit)
  | .evaluation input => do
    let r ← evaluationExec (valueClient K simp strtod) s input
    pure r.1
  | .definition input => do
    let r ← definitionExec (valueClient K simp strtod) s input
    pure r.1
  | .clear input => do
    let r ← Out.of (clearExec s input)
    pure r.1

/-- One input after the other. -/
def sessionOn (simp : Simp V) (strtod : Str → Option V) :
    Session V Unit → List (Machine V ε × MemInput) → Out (Session V Unit)
  | s, [] => .ok s
  | s, (K, i) :: rest => do
    let s' ← inputOn K simp strtod s i
    sessionOn simp strtod s' rest

end Verif.MemorySpec
