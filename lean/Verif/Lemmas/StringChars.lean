import Lean.Meta.Tactic.Simp.BuiltinSimprocs.String

/-!
# Characters of string literals

The built-in simplification procedure leaves it to the kernel to decode the literal;
this one gives a proof.
-/

open Lean Meta

simproc_decl literalChars (String.toList _) := fun e => do
  match e with
  | .app _ (.lit (.strVal s)) =>
    let cs := toExpr s.toList
    return .done { expr := cs, proof? := some (mkApp (mkConst ``String.toList_ofList) cs) }
  | _ => return .continue
