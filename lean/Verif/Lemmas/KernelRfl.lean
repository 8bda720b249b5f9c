import Lean.Elab.Tactic.Basic
import Lean.Meta.AppBuilder

/-!
# Proofs by computation in the kernel

`kernel_rfl` closes a goal `a = b` by `Eq.refl a`; that both sides are equal by computation is
checked by the kernel only.
-/

open Lean Elab Tactic Meta

elab "kernel_rfl" : tactic => do
  let g ← getMainGoal
  let t ← instantiateMVars (← g.getType)
  match t.eq? with
  | some (_, a, _) => g.assign (← mkEqRefl a)
  | none => throwError "not an equation"
