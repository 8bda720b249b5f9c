import Verif.Model.SimplifyHeap

/-!
# Definitions in memory

`get_pattern` and `get_rule`, the commands that define and clear functions, and a session of inputs,
definitions and clearings, on nodes in memory (Model/NodeHeap, Model/SimplifyHeap).

The variables of type `Node *` are numbered: 0 is `left_tree`, 1 is `p_result->tree` (also
`right_result.tree`), 2 is `right_tree`, 3 is `transformed` and `replacement`.  The texts of names and of
inputs are values, as are the operators of the context: which function is meant by a name, what `deleteOp`
and `addOp` do, is the subject of C06, C07 and C32.  Messages are left out.
-/

namespace Verif
variable {V ε : Type}

/-- A rule in `g_composite_functions` (src/client/core/arith_context.c:15): the addresses of
`pattern.pattern` and `after`.  Rules of functions have no constraints. -/
structure MemFun where
  left : Nat
  after : Nat
deriving DecidableEq, Repr

mutual
/-- The tree a pointer points to; what `find_matching` reads of a pattern. -/
def readTree : (deep : Nat) → Mem V → Option Nat → Out (Tree V)
  | 0, _, _ => .hang
  | n + 1, m, p => do
    match ← m.load p with
    | .const v i => pure (.const v i)
    | .var y k i => pure (.var y k i)
    | .op o cs i => do
      let ts ← readTrees n m cs
      pure (.op o ts i)
/-- The same for the children of a node. -/
def readTrees : (deep : Nat) → Mem V → List (Option Nat) → Out (List (Tree V))
  | 0, _, _ => .hang
  | _ + 1, _, [] => .ok []
  | n + 1, m, c :: cs => do
    let t ← readTree n m c
    let ts ← readTrees n m cs
    pure (t :: ts)
end

/-- The rules as `apply_ruleset` is given them in `arith_simplify`, arith_context.c:263-264. -/
def rulesAt (deep : Nat) (m : Mem V) : List MemFun → Out (List (MemRule V))
  | [] => .ok []
  | f :: fs => do
    let t ← readTree deep m (some f.left)
    let rs ← rulesAt deep m fs
    pure (⟨⟨t, fun _ => []⟩, f.after⟩ :: rs)

/-! ## tree_util.c -/

mutual
/-- `get_variable_nodes`, src/engine/tree/tree_util.c:155-202, without a buffer: the number of nodes. -/
def countNamed (name : Str) : (deep : Nat) → Mem V → Option Nat → Out Nat
  | 0, _, _ => .hang
  | n + 1, m, p => do
    match ← m.load p with
    | .const _ _ => pure 0
    | .var y _ _ => pure (if y = name then 1 else 0)
    | .op _ cs _ => countNamedList name n m cs
/-- The loop of lines 181-196. -/
def countNamedList (name : Str) : (deep : Nat) → Mem V → List (Option Nat) → Out Nat
  | 0, _, _ => .hang
  | _ + 1, _, [] => .ok 0
  | n + 1, m, c :: cs => do
    let a ← countNamed name n m c
    let b ← countNamedList name n m cs
    pure (a + b)
end

mutual
/-- `tree_copy_IDs`, tree_util.c:298-323. -/
def copyIdsAt (vars : List Str) : (deep : Nat) → Mem V → Option Nat → Out (Mem V)
  | 0, _, _ => .hang
  | _ + 1, _, none => .ub
  | n + 1, m, some p =>
    match m.get p with
    | none => .ub
    | some (.const _ _) => .ok m
    | some (.var y _ i) =>
      match vars.idxOf? y with
      | some k => .ok (m.put p (.var y k i))
      | none => .ok m
    | some (.op _ _ _) => copyIdsChildren vars n m p 0
/-- The loop of lines 317-320 from index `i` on. -/
def copyIdsChildren (vars : List Str) : (deep : Nat) → Mem V → (p i : Nat) → Out (Mem V)
  | 0, _, _, _ => .hang
  | n + 1, m, p, i =>
    match m.get p with
    | some (.op _ cs _) =>
      match cs[i]? with
      | some q => do
        let m' ← copyIdsAt vars n m q
        copyIdsChildren vars n m' p (i + 1)
      | none => .ok m
    | _ => .ub
end

/-! ## node.c, matching.c, rewrite_rule.c -/

/-- `set_op`, src/engine/tree/node.c:96-99. -/
def setOpAt (o : Op) (m : Mem V) : Option Nat → Out (Mem V)
  | none => .ub
  | some p =>
    match m.get p with
    | some (.op _ cs i) => .ok (m.put p (.op o cs i))
    | _ => .ub

/-- `get_pattern` without constraints, src/engine/transformation/matching.c:375-391: whether there are
few enough variables. -/
def getPatternAt (deep : Nat) (m : Mem V) (p : Option Nat) : Out (Bool × Mem V) := do
  let r ← listVarsAt maxMappedVars deep m p [] true
  pure (r.2.2, r.1)

/-- The loop of `get_rule`, src/engine/transformation/rewrite_rule.c:32-38: all names occur. -/
def allNamedAt (deep : Nat) (m : Mem V) (p : Option Nat) : List Str → Out Bool
  | [] => .ok true
  | v :: vs => do
    let k ← countNamed v deep m p
    if k = 0 then pure false else allNamedAt deep m p vs

/-- The end of `get_rule`, rewrite_rule.c:41-43. -/
def finishRuleAt (deep : Nat) (m : Mem V) (pattern after : Option Nat) : Out (Bool × Mem V) := do
  let q ← listVarsAt maxMappedVars deep m pattern [] true
  let m' ← copyIdsAt q.2.1 deep q.1 after
  pure (true, m')

/-- `get_rule`, rewrite_rule.c:16-50. -/
def getRuleAt (deep : Nat) (m : Mem V) (pattern after : Option Nat) : Out (Bool × Mem V) := do
  let k ← countVariables deep m after
  if k = 0 then finishRuleAt deep m pattern after
  else do
    let r ← listVarsAt maxMappedVars deep m after [] true
    if r.2.2 then do
      let b ← allNamedAt deep r.1 pattern r.2.1
      if b then finishRuleAt deep r.1 pattern after else pure (false, r.1)
    else pure (false, r.1)

/-! ## cmd_definition.c -/

/-- The loop of `do_left_checks`, src/client/commands/cmd_definition.c:42-49. -/
def leftVarsAt (m : Mem V) : List (Option Nat) → Out Bool
  | [] => .ok true
  | c :: cs => do
    match ← m.load c with
    | .var _ _ _ => leftVarsAt m cs
    | _ => pure false

/-- `do_left_checks`, cmd_definition.c:30-67. -/
def leftChecksAt (deep : Nat) (m : Mem V) (p : Option Nat) : Out (Bool × Mem V) := do
  match ← m.load p with
  | .op o cs _ =>
    if o.placement ≠ .function then pure (false, m)
    else if cs.isEmpty then pure (true, m)
    else do
      let b ← leftVarsAt m cs
      if b then do
        let r ← listVarsAt maxMappedVars deep m p [] true
        if !r.2.2 then pure (false, r.1)
        else if r.2.1.length ≠ cs.length then pure (false, r.1)
        else pure (true, r.1)
      else pure (false, m)
  | _ => pure (false, m)

/-- The label `error` of `add_function`, cmd_definition.c:183-188. -/
def definitionFailAt (deep : Nat) (c : Ctx) (name : Str) (m : Mem V) :
    Out (Ctx × Option MemFun × Mem V) := do
  let d ← Out.of (c.deleteOp name .function)
  let m1 ← freeTree deep m (m.vars 0)
  let m2 ← freeTree deep m1 (m1.vars 2)
  pure (d.1, none, m2)

namespace Machine
variable (K : Machine V ε) (M : Malloc V) (F : Finder V) (deep : Nat) (strtod : Str → Option V)

/-- `add_function` from line 146 of cmd_definition.c on. -/
def addRuleAt (funs : List MemFun) (ms : MemSimp V) (c : Ctx) (name : Str) (m : Mem V) :
    Out (Ctx × Option MemFun × Mem V) := do
  let rules ← rulesAt deep m funs
  match ← K.arithSimplifyAt M F deep 3 rules ms m 1 with
  | (some _, _) => .ub
  | (none, m1) => do
    let m2 := m1.setVar 2 (m1.vars 1)
    let g ← getPatternAt deep m2 (m2.vars 0)
    if g.1 then do
      let r ← getRuleAt deep g.2 (g.2.vars 0) (g.2.vars 2)
      if r.1 then
        match r.2.vars 0, r.2.vars 2 with
        | some a, some b => pure (c, some ⟨a, b⟩, r.2)
        | _, _ => .ub
      else definitionFailAt deep c name r.2
    else .ub

/-- `add_function` from the parsing of the right side on, cmd_definition.c:132-181. -/
def addFunctionRightAt (funs : List MemFun) (ms : MemSimp V) (c : Ctx) (name right : Str) (newOp : Op)
    (m : Mem V) : Out (Ctx × Option MemFun × Mem V) := do
  match ← parseHeap M true c.env strtod (tokenize c.keywords right) m with
  | (.err _ _, m1) => definitionFailAt deep c name m1
  | (.okUninit, _) => .ub
  | (.ok p, m1) => do
    let m2 := m1.setVar 1 p
    match ← findOpAt newOp.id deep m2 (.var 1) with
    | some _ => do
      let m3 ← freeTree deep m2 (m2.vars 1)
      definitionFailAt deep c name m3
    | none => K.addRuleAt M F deep funs ms c name m2

/-- `add_function` from line 121 of cmd_definition.c on: the operator of the left side. -/
def addFunctionOpAt (funs : List MemFun) (ms : MemSimp V) (c1 : Ctx) (a1 : Option Nat) (name right : Str)
    (isConstant : Bool) (m : Mem V) : Out (Ctx × Option MemFun × Mem V) :=
  if isConstant then
    match a1 with
    | none => .ub
    | some a => do
      let newOp ← Out.of (c1.deref a)
      K.addFunctionRightAt M F deep strtod funs ms c1 name right newOp m
  else do
    let d ← Out.of (c1.deleteOp name .function)
    match ← m.load (m.vars 0) with
    | .op _ cs _ => do
      let e ← Out.of (d.1.addOp (Op.getFunction name (.fixed cs.length)))
      match e.2 with
      | none => .ub
      | some a => do
        let newOp ← Out.of (e.1.deref a)
        let m' ← setOpAt newOp m (m.vars 0)
        K.addFunctionRightAt M F deep strtod funs ms e.1 name right newOp m'
    | _ => .ub

/-- `add_function`, cmd_definition.c:69-189: the context, the rule that was added (`none`: false is
returned) and the memory. -/
def addFunctionAt (funs : List MemFun) (ms : MemSimp V) (c : Ctx) (name left right : Str)
    (isConstant : Bool) (m : Mem V) : Out (Ctx × Option MemFun × Mem V) := do
  match ← Out.of (c.lookup name .function) with
  | some _ => pure (c, none, m)
  | none => do
    let c1 ← Out.of (c.addOp (if isConstant then Op.getConstant name else Op.getFunction name .dyn))
    let m0 := (m.setVar 0 none).setVar 2 none
    match ← parseHeap M true c1.1.env strtod (tokenize c1.1.keywords left) m0 with
    | (.err _ _, m1) => definitionFailAt deep c1.1 name m1
    | (.okUninit, _) => .ub
    | (.ok p, m1) => do
      let m2 := m1.setVar 0 p
      let l ← leftChecksAt deep m2 p
      if l.1 then K.addFunctionOpAt M F deep strtod funs ms c1.1 c1.2 name right isConstant l.2
      else definitionFailAt deep c1.1 name l.2

/-- `cmd_definition_exec`, cmd_definition.c:194-248. -/
def definitionAt (funs : List MemFun) (ms : MemSimp V) (c : Ctx) (input : Str) (m : Mem V) :
    Out (Ctx × Option MemFun × Mem V) :=
  match strstr input "=".toList with
  | none => .ub
  | some k =>
    match (tokenize c.keywords (input.take k)).filter fun t => !headIs isSpace t with
    | [] => pure (c, none, m)
    | name :: more =>
      if !headIs isLetter name then pure (c, none, m)
      else K.addFunctionAt M F deep strtod funs ms c name (input.take k) (input.drop (k + 1)) more.isEmpty m

end Machine

/-! ## arith_context.c, cmd_clear.c -/

/-- `get_op` of the root of the left side of a rule, which has to be an operator. -/
def headOpAt (m : Mem V) (f : MemFun) : Out Op := do
  match ← m.load (some f.left) with
  | .op o _ _ => pure o
  | _ => .ub

/-- `remove_node`, src/client/core/arith_context.c:110-122, with `free_rule` (rewrite_rule.c:55-59) and
`free_pattern` (matching.c:418-428): the context and the memory.  The removal from the list is left to
the callers. -/
def removeFunAt (deep : Nat) (c : Ctx) (f : MemFun) (m : Mem V) : Out (Ctx × Mem V) := do
  let o ← headOpAt m f
  let d ← Out.of (c.deleteOp o.name .function)
  let m1 ← freeTree deep m (some f.left)
  let m2 ← freeTree deep m1 (some f.after)
  pure (d.1, m2)

/-- The loop of `remove_composite_function`, arith_context.c:124-141; operators are compared as in
`takeRule`. -/
def takeFunAt (o : Op) (m : Mem V) : List MemFun → Out (Option (MemFun × List MemFun))
  | [] => .ok none
  | f :: fs => do
    let p ← headOpAt m f
    if p = o then pure (some (f, fs))
    else do
      match ← takeFunAt o m fs with
      | some (g, rest) => pure (some (g, f :: rest))
      | none => pure none

/-- `clear_composite_functions`, arith_context.c:143-149. -/
def clearFunsAt (deep : Nat) (c : Ctx) : List MemFun → Mem V → Out (Ctx × Mem V)
  | [], m => .ok (c, m)
  | f :: fs, m => do
    let r ← removeFunAt deep c f m
    clearFunsAt deep r.1 fs r.2

/-- `cmd_clear_exec`, src/client/commands/cmd_clear.c:23-62: the context, the rules that are left, and the
memory. -/
def clearAt (deep : Nat) (c : Ctx) (funs : List MemFun) (input : Str) (m : Mem V) :
    Out (Ctx × List MemFun × Mem V) :=
  if input = clearCommand then do
    let r ← clearFunsAt deep c funs m
    pure (r.1, [], r.2)
  else do
    match ← Out.of (c.lookup (input.drop (clearCommand.length + 1)) .function) with
    | none => pure (c, funs, m)
    | some (_, o) => do
      match ← takeFunAt o m funs with
      | none => pure (c, funs, m)
      | some (f, rest) => do
        let r ← removeFunAt deep c f m
        pure (r.1, rest, r.2)

/-! ## A session -/

/-- `g_ctx`, `g_composite_functions`, `ans_vec` and the memory. -/
structure MemSession (V : Type) where
  ctx : Ctx
  funs : List MemFun
  hist : List V
  mem : Mem V

/-- Inputs of these three commands. -/
inductive MemInput where
  | evaluation (input : Str)
  | definition (input : Str)
  | clear (input : Str)

/-- One input: `cmd_evaluation_exec` (src/client/commands/cmd_evaluation.c:22-35), `cmd_definition_exec`,
`cmd_clear_exec`. -/
def Machine.inputAt (K : Machine V ε) (M : Malloc V) (F : Finder V) (deep : Nat) (strtod : Str → Option V)
    (ms : MemSimp V) (s : MemSession V) : MemInput → Out (MemSession V)
  | .evaluation input => do
    let rules ← rulesAt deep s.mem s.funs
    let r ← K.evaluationAt M F deep 3 s.ctx.env strtod rules ms 1 (tokenize s.ctx.keywords input) s.mem
    pure { s with hist := match r.1 with
                    | some (some v) => historyAdd s.hist v
                    | _ => s.hist
                  mem := r.2 }
  | .definition input => do
    let r ← K.definitionAt M F deep strtod s.funs ms s.ctx input s.mem
    pure { s with ctx := r.1, funs := s.funs ++ r.2.1.toList, mem := r.2.2 }
  | .clear input => do
    let r ← clearAt deep s.ctx s.funs input s.mem
    pure { s with ctx := r.1, funs := r.2.1, mem := r.2.2 }

/-- One input after the other.  Arithmetic may differ from input to input: it depends on the history and
on the state of the random numbers. -/
def sessionAt (M : Malloc V) (F : Finder V) (deep : Nat) (strtod : Str → Option V) (ms : MemSimp V) :
    MemSession V → List (Machine V ε × MemInput) → Out (MemSession V)
  | s, [] => .ok s
  | s, (K, i) :: rest => do
    let s' ← K.inputAt M F deep strtod ms s i
    sessionAt M F deep strtod ms s' rest

end Verif
