import Verif.Model.Simplification
import Verif.Model.Session

/-!
# Simplification of expressions (src/client/simplification/simplification.c:123-218)

`simplify` with all its phases, for loaded rules `s : Simp V`.  The evaluation of operators
(`arith_op_evaluate`) is a function `arith`; that it ends, and without undefined
behaviour, is the subject of src/client/core/arith_evaluation.c (C42), as is the random number
generator.
-/

namespace Verif
variable {V ε : Type}

/-- Errors of `simplify`: those of the evaluation of operators, and
`LISTENERERR_MALFORMED_DERIV_A`, `LISTENERERR_MALFORMED_DERIV_B`, `LISTENERERR_IMPOSSIBLE_DERIV`
(src/client/core/arith_evaluation.h:6-12). -/
inductive SimpErr (ε : Type) where
  | listener (e : ε)
  | malformedA
  | malformedB
  | impossible
deriving DecidableEq, Repr

/-- What `simplify` uses: operations on doubles, `arith_op_evaluate`,
`LISTENERERR_VARIABLE_ENCOUNTERED`, and a bound for the rounds of each loop. -/
structure Machine (V ε : Type) where
  dbl : Doubles V
  arith : Op → List V → Except ε V
  varErr : ε
  fuel : Nat

/-- `get_token_index(errnode)`, what the callers look at (src/client/core/arith_context.c:268): the
token index of the node a pointer into the tree points to. -/
def errTok (t : Tree V) (p : Path) : Out Nat :=
  match t.deref p with
  | some n => .ok n.tok
  | none => .ub

namespace Machine
variable (M : Machine V ε)

/-- `propositional_checker`, src/client/simplification/propositional_evaluation.c:87-101, as a
truth value: a constraint that ends the program counts as false (the constraints of
the shipped rules never do, C61). -/
def checker (t : Tree V) : Bool :=
  match propChecker M.dbl M.arith M.varErr t with
  | .ok b => b
  | _ => false

/-- `apply_simplification`, simplification.c:123-132. -/
def applySimplification (rules : List (RewriteRule V)) (t : Tree V) : Out (Tree V) :=
  Out.ofFuel (simplifyLoop M.dbl M.checker M.arith M.varErr rules M.fuel t)

/-- `apply_simplification` with one ruleset after the other. -/
def applyAll (rulesets : Nat → List (RewriteRule V)) : List Nat → Tree V → Out (Tree V)
  | [], t => .ok t
  | k :: ks, t => do
    let u ← M.applySimplification (rulesets k) t
    applyAll rulesets ks u

/-- `simplify_without_derivative`, simplification.c:183-191. -/
def withoutDerivative (s : Simp V) (t : Tree V) : Out (Tree V) :=
  M.applyAll s.rulesets [0, 2, 3, 4, 5, 6] t

/-- The replacement for a derivative in shorthand, simplification.c:151-160: `after` is `deriv_after`,
`vars` the variables found in the matched tree, `tok` its token index and `arg` the tree
`matching.mapped_nodes[0].nodes[0]`.  `ub` if `after` does not have two children. -/
def derivReplacement (after : Tree V) (vars : List Str) (tok : Nat) (arg : Tree V) : Res (Tree V) :=
  match treeCopy after with
  | .op o [_, b] _ =>
    match vars with
    | [] => .ok (.op o [treeCopy arg, b] tok)
    | v :: _ => .ok (.op o [treeCopy arg, .var v 0 0] tok)
  | _ => .ub

/-- The loop of `apply_derivatives`, simplification.c:139-161, with at most `fuel` rounds: the tree
afterwards, or the token index of the node with more than one variable.  `list_variables` also numbers
the variables of the matched tree; what is replaced in it is its first variable, which
gets the number 0, so that of `arg` can be numbered alone. -/
def shorthandLoop (before : Pattern V) (after : Tree V) : (fuel : Nat) → Tree V →
    Out (Except (SimpErr ε × Nat) (Tree V))
  | 0, _ => .hang
  | fuel + 1, t => do
    match ← Out.of (findMatching M.dbl.eq (fun _ => true) before t []) with
    | none => pure (.ok t)
    | some (p, m) =>
      match t.deref p with
      | none => .ub
      | some matched =>
        let l := listVariables 2 matched
        if 1 < l.count then pure (.error (.malformedA, matched.tok))
        else match m 0 with
          | some (arg :: _) => do
            let r ← Out.of (derivReplacement after l.vars matched.tok (listVariables 2 arg).tree)
            shorthandLoop before after fuel (t.replaceAt p r)
          | _ => .ub

/-- `apply_derivatives`, simplification.c:134-181.  A pattern or tree that is not there (see
`initSimplification`) is undefined behaviour. -/
def applyDerivatives (s : Simp V) (t : Tree V) : Out (Except (SimpErr ε × Nat) (Tree V)) :=
  match s.derivBefore, s.derivAfter, s.malformedDeriv with
  | some before, some after, some malformed => do
    match ← M.shorthandLoop before after M.fuel t with
    | .error e => pure (.error e)
    | .ok t1 =>
      match ← Out.of (findMatching M.dbl.eq M.checker malformed t1 []) with
      | some (p, _) => do
        let i ← errTok t1 p
        pure (.error (.malformedB, i))
      | none => do
        let t2 ← M.applySimplification (s.rulesets 1) t1
        match after.rootOp with
        | none => .ub
        | some o =>
          match findOpNode o.id t2 [] with
          | some p => do
            let i ← errTok t2 p
            pure (.error (.impossible, i))
          | none => pure (.ok t2)
  | _, _, _ => .ub

/-- `tree_reduce_constant_subtrees` as the last step that can fail. -/
def fold (t : Tree V) : Out (Except (SimpErr ε × Nat) (Tree V)) :=
  let r := reduceConst M.arith M.varErr t []
  match r.2 with
  | some (e, p) => do
    let i ← errTok r.1 p
    pure (.error (.listener e, i))
  | none => pure (.ok r.1)

/-- `simplify`, simplification.c:200-218: the tree afterwards, or the error code and
the token index of `*errnode`.  The result of the first `tree_reduce_constant_subtrees` is used only
if no rules are loaded. -/
def simplify (s : Simp V) (t : Tree V) : Out (Except (SimpErr ε × Nat) (Tree V)) :=
  if !s.initialized then M.fold t
  else do
    let t1 ← M.withoutDerivative s (reduceConst M.arith M.varErr t []).1
    match ← M.applyDerivatives s t1 with
    | .error e => pure (.error e)
    | .ok t2 => do
      let t3 ← M.withoutDerivative s t2
      match ← M.fold t3 with
      | .error e => pure (.error e)
      | .ok t4 => pure (.ok (replaceNegConsts M.dbl t4))

end Machine
end Verif
