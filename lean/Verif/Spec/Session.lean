import Verif.Spec.Matching
import Verif.Model.ArithContext

/-!
# User functions

Definitions and what it means to expand them, stated without the functions of the
program.
-/

namespace Verif
variable {V : Type}

/-- A definition `op(params) = body`. -/
structure FunDef (V : Type) where
  op : Op
  params : List Str
  body : Tree V

/-- All operator nodes satisfy `P` (operator and number of operands). -/
inductive AllOps (P : Op → Nat → Prop) : Tree V → Prop where
  | const {v i} : AllOps P (.const v i)
  | var {n x i} : AllOps P (.var n x i)
  | op {o cs i} : P o cs.length → (∀ c ∈ cs, AllOps P c) → AllOps P (.op o cs i)

/-- `o` is an operator of the arithmetic context, and can have `n` operands. -/
def BuiltIn (o : Op) (n : Nat) : Prop :=
  (∃ q, arithOps[o.id]? = some q ∧ o = { q with id := o.id }) ∧ (o.arity = .dyn ∨ o.arity = .fixed n)

/-- The arguments `args` are assigned to the parameters. -/
def FunDef.assign (d : FunDef V) (args : List (Tree V)) : Str → Option (List (Tree V)) :=
  fun n => ((d.params.zip args).lookup n).map fun t => [t]

/-- `Expanded D t u`: `u` is the expression `t` in which every call of a function of
`D` is replaced by its body, all parameters at once being replaced by the (expanded)
arguments.  The nodes of the body get the token number of the call. -/
inductive Expanded (D : List (FunDef V)) : Tree V → Tree V → Prop where
  | const {v i} : Expanded D (.const v i) (.const v i)
  | var {n x i} : Expanded D (.var n x i) (.var n x i)
  | op {o cs ds i} (hl : cs.length = ds.length) : (∀ d ∈ D, d.op ≠ o) →
      (∀ k (hk : k < cs.length), Expanded D cs[k] (ds[k]'(hl ▸ hk))) →
      Expanded D (.op o cs i) (.op o ds i)
  | call {d cs ds i u} (hl : cs.length = ds.length) : d ∈ D → cs.length = d.params.length →
      (∀ k (hk : k < cs.length), Expanded D cs[k] (ds[k]'(hl ▸ hk))) →
      Inst (d.assign ds) (fun _ => i) d.body [u] → Expanded D (.op d.op cs i) u

end Verif
