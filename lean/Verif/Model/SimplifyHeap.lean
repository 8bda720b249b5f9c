import Verif.Model.NodeHeap
import Verif.Model.ParserHeap
import Verif.Model.Simplify

/-!
# Evaluation of an input in memory

The loops of rewrite_rule.c and simplification.c, `arith_simplify` and the command that
evaluates an input, on nodes in memory (Model/NodeHeap).  `deep` bounds the calls and rounds of the
functions that walk through one tree, `rounds` the loops that apply rules.

`find_matching` (src/engine/transformation/matching.c:354-366) only reads the tree.  Here it is a
parameter, of type `Finder`; what it answers is the subject of C03, C09, C97 and C99.  Patterns are
values: nothing here writes to them.  `*errnode` is left out, and the reporting of errors is.
-/

namespace Verif
variable {V ε : Type}

/-- `find_matching`, src/engine/transformation/matching.c:354-366: the checker of constraints, the
pattern, the memory and the place of the tree; the answer are `matched` and `*out_matching`. -/
abbrev Finder (V : Type) :=
  (Tree V → Bool) → Pattern V → Mem V → Slot → Out (Option (Slot × SlotMatching))

/-- `RewriteRule`, src/engine/transformation/rewrite_rule.h:7-11, with the address of `after`. -/
structure MemRule (V : Type) where
  pattern : Pattern V
  after : Nat

/-! ## rewrite_rule.c -/

/-- `apply_rule`, src/engine/transformation/rewrite_rule.c:80-94: whether the rule was applied; `x` is
the variable `transformed`. -/
def applyRuleAt (M : Malloc V) (F : Finder V) (deep : Nat) (checker : Tree V → Bool) (x : Nat)
    (rule : MemRule V) (m : Mem V) (root : Slot) : Out (Bool × Mem V) := do
  match ← F checker rule.pattern m root with
  | none => pure (false, m)
  | some (matched, matching) => do
    let m' ← rewriteAt M deep m x (some rule.after) matched matching
    pure (true, m')

/-- The inner loop of `apply_ruleset_by_iterator`, rewrite_rule.c:138-153. -/
def applyFirstAt (M : Malloc V) (F : Finder V) (deep : Nat) (checker : Tree V → Bool) (x : Nat) :
    List (MemRule V) → Mem V → Slot → Out (Bool × Mem V)
  | [], m, _ => .ok (false, m)
  | r :: rs, m, root => do
    match ← applyRuleAt M F deep checker x r m root with
    | (true, m') => pure (true, m')
    | (false, m') => applyFirstAt M F deep checker x rs m' root

/-- The outer loop of `apply_ruleset_by_iterator`, rewrite_rule.c:133-166: the return value. -/
def applyLoopAt (M : Malloc V) (F : Finder V) (deep : Nat) (checker : Tree V → Bool) (x : Nat)
    (rules : List (MemRule V)) (cap : Nat) : (rounds counter : Nat) → Mem V → Slot → Out (Nat × Mem V)
  | 0, _, _, _ => .hang
  | rounds + 1, counter, m, root => do
    match ← applyFirstAt M F deep checker x rules m root with
    | (false, m') => pure (counter, m')
    | (true, m') =>
      if counter + 1 = cap then pure (counter + 1, m')
      else applyLoopAt M F deep checker x rules cap rounds (counter + 1) m' root

/-! ## tree_util.c -/

mutual
/-- `list_variables_rec`, src/engine/tree/tree_util.c:204-245: the ids are written into the nodes.
The names found so far and whether the buffer was large enough as in `listVarsRec`. -/
def listVarsAt (buf : Nat) : (deep : Nat) → Mem V → Option Nat → List Str → Bool →
    Out (Mem V × List Str × Bool)
  | 0, _, _, _, _ => .hang
  | _ + 1, _, none, _, _ => .ub
  | n + 1, m, some p, vs, ok =>
    if ok then
      match m.get p with
      | none => .ub
      | some (.const _ _) => .ok (m, vs, true)
      | some (.var y _ i) =>
        match vs.idxOf? y with
        | some k => .ok (m.put p (.var y k i), vs, true)
        | none =>
          if vs.length < buf then .ok (m.put p (.var y vs.length i), vs ++ [y], true)
          else .ok (m, vs, false)
      | some (.op _ _ _) => listVarsChildren buf n m p 0 vs true
    else .ok (m, vs, false)
/-- The loop of lines 236-240 from index `i` on. -/
def listVarsChildren (buf : Nat) : (deep : Nat) → Mem V → (p i : Nat) → List Str → Bool →
    Out (Mem V × List Str × Bool)
  | 0, _, _, _, _, _ => .hang
  | n + 1, m, p, i, vs, ok =>
    match m.get p with
    | some (.op _ cs _) =>
      match cs[i]? with
      | some q => do
        let r ← listVarsAt buf n m q vs ok
        listVarsChildren buf n r.1 p (i + 1) r.2.1 r.2.2
      | none => .ok (m, vs, ok)
    | _ => .ub
end

mutual
/-- `find_op`, tree_util.c:250-268. -/
def findOpAt (id : Nat) : (deep : Nat) → Mem V → Slot → Out (Option Slot)
  | 0, _, _ => .hang
  | n + 1, m, slot => do
    let p ← m.deref slot
    match p with
    | none => .ub
    | some p =>
      match m.get p with
      | none => .ub
      | some (.op o _ _) => if o.id = id then pure (some slot) else findOpChildren id n m p 0
      | some _ => pure none
/-- The loop of lines 260-264 from index `i` on. -/
def findOpChildren (id : Nat) : (deep : Nat) → Mem V → (p i : Nat) → Out (Option Slot)
  | 0, _, _, _ => .hang
  | n + 1, m, p, i =>
    match m.get p with
    | some (.op _ cs _) =>
      if i < cs.length then do
        match ← findOpAt id n m (.child p i) with
        | some s => pure (some s)
        | none => findOpChildren id n m p (i + 1)
      else pure none
    | _ => .ub
end

/-! ## simplification.c -/

/-- `replace_negative_consts`, src/client/simplification/simplification.c:45-66. -/
def replaceNegAt (M : Malloc V) (D : Doubles V) : (deep : Nat) → Mem V → Slot → Out (Option Empty × Mem V)
  | 0, _, _ => .hang
  | n + 1, m, slot => do
    let p ← m.deref slot
    match ← m.load p with
    | .const v i =>
      if D.lt v (D.ofNat 0) then do
        let a := m.alloc M (.op negOp [none] i)
        let b := a.2.alloc M (.const (D.fabs v) i)
        let m1 ← b.2.setChild a.1 0 (some b.1)
        let m2 ← replaceTree n m1 slot (some a.1)
        pure (none, m2)
      else pure (none, m)
    | .var _ _ _ => pure (none, m)
    | .op _ _ _ => childLoop (replaceNegAt M D n) n m slot 0

namespace Machine
variable (K : Machine V ε) (M : Malloc V) (F : Finder V) (deep x : Nat)

/-- `apply_simplification`, simplification.c:123-132. -/
def applySimplificationAt (rules : List (MemRule V)) : (rounds : Nat) → Mem V → Slot → Out (Mem V)
  | 0, _, _ => .hang
  | rounds + 1, m, root => do
    let r ← applyLoopAt M F deep K.checker x rules 1 1 0 m root
    match r.1 with
    | 0 => do
      let s ← replaceNegAt M K.dbl deep r.2 root
      pure s.2
    | _ + 1 => do
      let s ← reduceConstants M K.arith K.varErr deep r.2 root
      applySimplificationAt rules rounds s.2 root

/-- `apply_simplification` with one ruleset after the other. -/
def applyAllAt (rulesets : Nat → List (MemRule V)) : List Nat → Mem V → Slot → Out (Mem V)
  | [], m, _ => .ok m
  | k :: ks, m, root => do
    let m' ← K.applySimplificationAt M F deep x (rulesets k) K.fuel m root
    applyAllAt rulesets ks m' root

/-- simplification.c:154-157: the second child of `replacement` becomes the variable, if there is one. -/
def putVariableAt (r : Nat) (m : Mem V) : List Str → Out (Mem V)
  | [] => .ok m
  | v :: _ => replaceTree deep (m.alloc M (.var v 0 0)).2 (.child r 1) (some (m.alloc M (.var v 0 0)).1)

/-- The replacement for a derivative in shorthand, simplification.c:151-159: `after` is the address of
`deriv_after`, `matched` the place of the derivative, `vars` what `list_variables` has found
and `arg` the place of `matching.mapped_nodes[0].nodes[0]`; the pointer `replacement` is the
variable `x`. -/
def derivReplacementAt (after : Nat) (m : Mem V) (matched : Slot) (vars : List Str) (arg : Slot) :
    Out (Mem V) := do
  let a ← copyTree M deep m (some after)
  let m1 ← a.2.assign (.var x) a.1
  let c ← m1.load (← m1.deref matched)
  match a.1 with
  | none => .ub
  | some r =>
    match m1.get r with
    | some (.op o cs _) => do
      let m2 := m1.put r (.op o cs c.tok)
      let m3 ← putVariableAt M deep r m2 vars
      let b ← copyTree M deep m3 (← m3.deref arg)
      replaceTree deep b.2 (.child r 0) b.1
    | _ => .ub

/-- The loop of `apply_derivatives`, simplification.c:139-161. -/
def shorthandAt (before : Pattern V) (after : Nat) : (rounds : Nat) → Mem V → Slot →
    Out (Option (SimpErr ε) × Mem V)
  | 0, _, _ => .hang
  | rounds + 1, m, root => do
    match ← F (fun _ => true) before m root with
    | none => pure (none, m)
    | some (matched, matching) => do
      let r ← listVarsAt 2 deep m (← m.deref matched) [] true
      if 1 < (if r.2.2 then r.2.1.length else 2) then pure (some .malformedA, r.1)
      else
        match matching 0 with
        | [] => .ub
        | arg :: _ => do
          let m1 ← derivReplacementAt M deep x after r.1 matched r.2.1 arg
          let m2 ← replaceTree deep m1 matched (← m1.deref (.var x))
          shorthandAt before after rounds m2 root

end Machine

/-- The variables of simplification.c:33-38, with the addresses of the trees. -/
structure MemSimp (V : Type) where
  initialized : Bool
  rulesets : Nat → List (MemRule V)
  derivBefore : Option (Pattern V)
  derivAfter : Option Nat
  malformedDeriv : Option (Pattern V)

namespace Machine
variable (K : Machine V ε) (M : Malloc V) (F : Finder V) (deep x : Nat)

/-- `apply_derivatives`, simplification.c:134-181: the error and the memory. -/
def applyDerivativesAt (s : MemSimp V) (m : Mem V) (root : Slot) : Out (Option (SimpErr ε) × Mem V) :=
  match s.derivBefore, s.derivAfter, s.malformedDeriv with
  | some before, some after, some malformed => do
    match ← shorthandAt M F deep x before after K.fuel m root with
    | (some e, m1) => pure (some e, m1)
    | (none, m1) => do
      match ← F K.checker malformed m1 root with
      | some _ => pure (some .malformedB, m1)
      | none => do
        let m2 ← K.applySimplificationAt M F deep x (s.rulesets 1) K.fuel m1 root
        match m2.get after with
        | some (.op o _ _) => do
          match ← findOpAt o.id deep m2 root with
          | some _ => pure (some .impossible, m2)
          | none => pure (none, m2)
        | _ => .ub
  | _, _, _ => .ub

/-- `simplify`, simplification.c:200-218: the error and the memory. -/
def simplifyAt (s : MemSimp V) (m : Mem V) (root : Slot) : Out (Option (SimpErr ε) × Mem V) := do
  let r ← reduceConstants M K.arith K.varErr deep m root
  if !s.initialized then pure (r.1.map .listener, r.2)
  else do
    let m1 ← K.applyAllAt M F deep x s.rulesets [0, 2, 3, 4, 5, 6] r.2 root
    match ← K.applyDerivativesAt M F deep x s m1 root with
    | (some e, m2) => pure (some e, m2)
    | (none, m2) => do
      let m3 ← K.applyAllAt M F deep x s.rulesets [0, 2, 3, 4, 5, 6] m2 root
      match ← reduceConstants M K.arith K.varErr deep m3 root with
      | (some e, m4) => pure (some (.listener e), m4)
      | (none, m4) => do
        let q ← replaceNegAt M K.dbl deep m4 root
        pure (none, q.2)

/-- `arith_simplify`, src/client/core/arith_context.c:260-278: `funs` are the rules in
`g_composite_functions`, `y` is the variable `p_result->tree`.  The tree is freed if there is an
error. -/
def arithSimplifyAt (funs : List (MemRule V)) (s : MemSimp V) (m : Mem V) (y : Nat) :
    Out (Option (SimpErr ε) × Mem V) := do
  let r ← applyLoopAt M F deep (fun _ => true) x funs sizeMax K.fuel 0 m (.var y)
  match ← K.simplifyAt M F deep x s r.2 (.var y) with
  | (none, m') => pure (none, m')
  | (some e, m') => do
    let m'' ← freeTree deep m' (m'.vars y)
    pure (some e, m'')

/-- `cmd_evaluation_exec`, src/client/commands/cmd_evaluation.c:22-35, with `arith_parse`
(arith_context.c:227-237) on the tokens of the input: `none` if an error is shown, otherwise what is
added to the history. -/
def evaluationAt (E : Env) (strtod : Str → Option V) (funs : List (MemRule V)) (s : MemSimp V) (y : Nat)
    (toks : List Str) (m : Mem V) : Out (Option (Option V) × Mem V) := do
  match ← parseHeap M true E strtod toks m with
  | (.ok p, m1) => do
    let m2 ← m1.assign (.var y) p
    match ← K.arithSimplifyAt M F deep x funs s m2 y with
    | (some _, m3) => pure (none, m3)
    | (none, m3) => do
      let c ← m3.load (m3.vars y)
      let m4 ← freeTree deep m3 (m3.vars y)
      match c with
      | .const v _ => pure (some (some v), m4)
      | _ => pure (some none, m4)
  | (.err _ _, m1) => pure (none, m1)
  | (.okUninit, _) => .ub

end Machine
end Verif
