import Verif.Model.ArithContext
import Verif.Model.Rewrite

/-!
# Constraints of rules and simplification
(src/client/simplification/propositional_context.c, propositional_evaluation.c,
simplification.c)
-/

namespace Verif
variable {V ε : Type}

/-- The operators added by `init_propositional_ctx`,
src/client/simplification/propositional_context.c:11-28. -/
def propOps : List Op :=
  let p (s : String) (n : Nat) := Op.getPrefix s.toList n
  let i (s : String) (n : Nat) (a : Assoc) := Op.getInfix s.toList n a
  let f (s : String) (n : Nat) := Op.getFunction s.toList (.fixed n)
  let d (s : String) := Op.getFunction s.toList .dyn
  let k (s : String) := Op.getConstant s.toList
  [ f "type" 1, f "equal" 2, i "==" 1 .left, i "!=" 1 .left, k "CONST", k "VAR", k "OP",
    i ">" 1 .left, i "<" 1 .left, i ">=" 1 .left, i "<=" 1 .left, i "||" 0 .left,
    k "TRUE", k "FALSE", p "!" 4, d "count" ]

/-- `init_propositional_ctx`, propositional_context.c:9-34. -/
def propCtx : Res Ctx := do
  let c ← arithCtx
  let (c', ok) ← c.addOps propOps
  if !ok then .defect
  else do
    let (c'', _) ← c'.setGlue none
    pure c''

/-- What is done to doubles here: conversion of small integers, `==`, `<`, `<=`, and
`fabs`. -/
structure Doubles (V : Type) where
  ofNat : Nat → V
  eq : V → V → Bool
  lt : V → V → Bool
  le : V → V → Bool
  fabs : V → V

/-- Errors while a constraint is evaluated: those of the arithmetic evaluation, and
the program's end. -/
inductive CondErr (ε : Type) where
  | listener (e : ε)
  | defect
  | ub

/-- `EVAL_TRUE`, `EVAL_FALSE`, propositional_evaluation.c:12-13 -/
def Doubles.bool (D : Doubles V) (b : Bool) : V := D.ofNat (if b then 1 else 0)

/-- `EVAL_TYPE_CONST`, `EVAL_TYPE_VAR`, `EVAL_TYPE_OP`, propositional_evaluation.c:9-11 -/
def Doubles.kind (D : Doubles V) : Tree V → V
  | .const _ _ => D.ofNat 2
  | .var _ _ _ => D.ofNat 3
  | .op _ _ _ => D.ofNat 4

/-- `args[0]` and `args[1]`. -/
def binary (f : V → V → V) : List V → Except (CondErr ε) V
  | a :: b :: _ => .ok (f a b)
  | _ => .error .ub

/-- `prop_op_evaluate`, propositional_evaluation.c:15-65; `arith` is
`arith_op_evaluate`. -/
def propEvaluate (D : Doubles V) (arith : Op → List V → Except ε V) (o : Op) (args : List V) :
    Except (CondErr ε) V :=
  if o.id < numArithOps then
    match arith o args with
    | .ok v => .ok v
    | .error e => .error (.listener e)
  else match o.id - numArithOps with
    | 2 => binary (fun a b => D.bool (D.eq a b)) args
    | 3 => binary (fun a b => D.bool (!D.eq a b)) args
    | 4 => .ok (D.ofNat 2)
    | 5 => .ok (D.ofNat 3)
    | 6 => .ok (D.ofNat 4)
    | 7 => binary (fun a b => D.bool (D.lt b a)) args
    | 8 => binary (fun a b => D.bool (D.lt a b)) args
    | 9 => binary (fun a b => D.bool (D.le b a)) args
    | 10 => binary (fun a b => D.bool (D.le a b)) args
    | 11 => binary (fun a b => D.bool (!D.eq a (D.ofNat 0) || !D.eq b (D.ofNat 0))) args
    | 12 => .ok (D.ofNat 1)
    | 13 => .ok (D.ofNat 0)
    | 14 =>
      match args with
      | a :: _ => .ok (D.bool (D.eq a (D.ofNat 0)))
      | [] => .error .ub
    | _ => .error .defect

/-- `equal_eval`, propositional_evaluation.c:67-77 -/
def equalEval (D : Doubles V) : List (Tree V) → Res V
  | a :: b :: _ => .ok (D.bool (treeEquals D.eq a b))
  | _ => .ub

/-- `type_eval`, propositional_evaluation.c:79-85 -/
def typeEval (D : Doubles V) : List (Tree V) → Res V
  | a :: _ => .ok (D.kind a)
  | [] => .ub

/-- The operators `type` and `equal` of the propositional context.  The program
compares addresses; within this context that is the same as comparing the
operators. -/
def typeOp : Op := { Op.getFunction "type".toList (.fixed 1) with id := 58 }
def equalOp : Op := { Op.getFunction "equal".toList (.fixed 2) with id := 59 }

/-- `propositional_checker`, propositional_evaluation.c:87-101. -/
def propChecker (D : Doubles V) (arith : Op → List V → Except ε V) (varErr : ε) (t : Tree V) :
    Res Bool := do
  let t1 ← reduceOps (· == typeOp) (typeEval D) t
  let t2 ← reduceOps (· == equalOp) (equalEval D) t1
  match treeReduce (propEvaluate D arith) (.listener varErr) t2 [] with
  | .ok v => pure (!D.eq v (D.ofNat 0))
  | .error (.listener _, _) => pure false
  | .error (.defect, _) => .defect
  | .error (.ub, _) => .ub

/-- `get_op` of the prefix minus, simplification.c:51 -/
def negOp : Op := { Op.getPrefix "-".toList 7 with id := 12 }

mutual
/-- `replace_negative_consts`, simplification.c:45-66. -/
def replaceNegConsts (D : Doubles V) : Tree V → Tree V
  | .const v i => if D.lt v (D.ofNat 0) then .op negOp [.const (D.fabs v) i] i else .const v i
  | .var n x i => .var n x i
  | .op o cs i => .op o (replaceNegConstsList D cs) i
/-- The loop of lines 61-64. -/
def replaceNegConstsList (D : Doubles V) : List (Tree V) → List (Tree V)
  | [] => []
  | c :: cs => replaceNegConsts D c :: replaceNegConstsList D cs
end

/-- `apply_simplification`, simplification.c:123-132, with at most `fuel` rounds
of its loop; `none` if it runs longer.  Errors of the constant folding are
ignored. -/
def simplifyLoop (D : Doubles V) (checker : Tree V → Bool) (arith : Op → List V → Except ε V) (varErr : ε)
    (rules : List (RewriteRule V)) : (fuel : Nat) → Tree V → Res (Option (Tree V))
  | 0, _ => .ok none
  | fuel + 1, t => do
    match ← applyRuleset D.eq checker rules 1 1 t with
    | some (t', 0) => pure (some (replaceNegConsts D t'))
    | some (t', _ + 1) => simplifyLoop D checker arith varErr rules fuel (reduceConst arith varErr t' []).1
    | none => pure none -- not reached, one round suffices for the cap 1

end Verif
