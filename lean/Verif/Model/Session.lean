import Verif.Model.RuleParsing
import Verif.Model.ArithContext

/-!
# The calculator's session: definitions, clearing, evaluation, history
(src/client/commands/cmd_definition.c, cmd_clear.c, cmd_evaluation.c,
src/client/core/arith_context.c, history.c)

Printed messages are not modelled; commands return whether they succeeded.
-/

namespace Verif
variable {V ε ρ : Type}

/-- Outcome of a C function that may run forever (`hang`); otherwise as `Res`. -/
inductive Out (α : Type) where
  | ok (a : α)
  | hang
  | defect
  | ub
deriving DecidableEq, Repr

namespace Out

/-- Sequencing: a function continues only after a normal return. -/
def bind {α β : Type} : Out α → (α → Out β) → Out β
  | ok a, f => f a
  | hang, _ => hang
  | defect, _ => defect
  | ub, _ => ub

instance : Monad Out where
  pure := ok
  bind := bind

/-- A function that always ends. -/
def of {α : Type} : Res α → Out α
  | .ok a => ok a
  | .defect => defect
  | .ub => ub

/-- A loop that may run out of fuel. -/
def ofFuel {α : Type} : Res (Option α) → Out α
  | .ok (some a) => ok a
  | .ok none => hang
  | .defect => defect
  | .ub => ub

@[simp] theorem pure_eq {α : Type} (a : α) : (pure a : Out α) = ok a := rfl
@[simp] theorem bind_ok {α β : Type} (a : α) (f : α → Out β) : (ok a >>= f) = f a := rfl
@[simp] theorem bind_hang {α β : Type} (f : α → Out β) : ((hang : Out α) >>= f) = hang := rfl
@[simp] theorem bind_defect {α β : Type} (f : α → Out β) : ((defect : Out α) >>= f) = defect := rfl
@[simp] theorem bind_ub {α β : Type} (f : α → Out β) : ((ub : Out α) >>= f) = ub := rfl
@[simp] theorem of_ok {α : Type} (a : α) : of (.ok a) = ok a := rfl

theorem bind_eq_ok {α β : Type} {x : Out α} {f : α → Out β} {b : β} :
    (x >>= f) = ok b ↔ ∃ a, x = ok a ∧ f a = ok b := by
  cases x <;> simp

theorem of_eq_ok {α : Type} {x : Res α} {a : α} : of x = ok a ↔ x = .ok a := by
  cases x <;> simp [of]

end Out

/-- What the session commands are parametrised with: `strtod` (numbers), the
comparison `==` of doubles, and `simplify` (src/client/simplification/simplification.c:200).
`simplify` works on the state `ρ` of the world outside of the session (loaded rules,
random number generator), the history and a tree; it returns an error or the tree
afterwards.  `fuel` bounds the number of rounds of the loop of `apply_ruleset`;
`hang` if it is exceeded. -/
structure Client (V ε ρ : Type) where
  strtod : Str → Option V
  eqV : V → V → Bool
  simp : ρ → List V → Tree V → Out (ρ × Except ε (Tree V))
  fuel : Nat

/-- The global variables: `g_ctx` and `g_composite_functions`
(src/client/core/arith_context.c:14-15), `ans_vec` (src/client/core/history.c:6), and
the rest of the world. -/
structure Session (V ρ : Type) where
  ctx : Ctx
  funs : List (RewriteRule V)
  hist : List V
  world : ρ

/-- `init_arith_ctx`, src/client/core/arith_context.c:20-25, `init_history`,
history.c:8-11. -/
def initSession (w : ρ) : Res (Session V ρ) := do
  let c ← arithCtx
  pure ⟨c, [], [], w⟩

/-! ## history.c -/

/-- `history_get`, src/client/core/history.c:22-27; the vector in the order of
insertion. -/
def historyGet (h : List V) (index : Nat) : Option V :=
  if h.length ≤ index then none else h[h.length - 1 - index]?

/-- `history_add`, history.c:29-32 -/
def historyAdd (h : List V) (v : V) : List V := h ++ [v]

/-! ## arith_context.c -/

/-- `get_op` of the root of a rule's left side. -/
def Tree.rootOp : Tree V → Option Op
  | .op o _ _ => some o
  | _ => none

/-- `set_op`, src/engine/tree/node.c:96-99, of the root. -/
def Tree.setRootOp (o : Op) : Tree V → Tree V
  | .op _ cs i => .op o cs i
  | t => t

/-- `arith_simplify`, src/client/core/arith_context.c:260-278: world and tree
afterwards, `none` is NULL (an error was shown). -/
def arithSimplify (K : Client V ε ρ) (funs : List (RewriteRule V)) (hist : List V) (w : ρ)
    (t : Tree V) : Out (ρ × Option (Tree V)) := do
  let (t', _) ← Out.ofFuel (applyRuleset K.eqV (fun _ => true) funs sizeMax K.fuel t)
  let (w', r) ← K.simp w hist t'
  match r with
  | .error _ => pure (w', none)
  | .ok u => pure (w', some u)

/-- `remove_node`, arith_context.c:110-122: the operator is deleted from the context;
the removal from the list is left to the callers. -/
def removeNodeOp (c : Ctx) (rule : RewriteRule V) : Res Ctx :=
  match rule.pattern.tree.rootOp with
  | none => .ub
  | some o => do
    let (c', _) ← c.deleteOp o.name .function
    pure c'

/-- The loop of `remove_composite_function`, arith_context.c:124-141: the rule whose left
side has the operator as its root, and the other rules.  The program compares
pointers; the operators of user functions have distinct names (see `SInv`), so
comparing all fields is the same. -/
def takeRule (o : Op) : List (RewriteRule V) → Option (RewriteRule V × List (RewriteRule V))
  | [] => none
  | r :: rs =>
    if r.pattern.tree.rootOp = some o then some (r, rs)
    else match takeRule o rs with
      | some (q, rest) => some (q, r :: rest)
      | none => none

/-- `clear_composite_functions`, arith_context.c:143-149 -/
def clearFunctions (c : Ctx) : List (RewriteRule V) → Res Ctx
  | [] => .ok c
  | r :: rs => do
    let c' ← removeNodeOp c r
    clearFunctions c' rs

/-! ## cmd_clear.c -/

/-- `CLEAR_COMMAND`, src/client/commands/cmd_clear.c:11 -/
def clearCommand : Str := "clear".toList

/-- `cmd_clear_check`, cmd_clear.c:13-18 -/
def clearCheck (input : Str) : Bool := beginsWith clearCommand input

/-- `cmd_clear_exec`, cmd_clear.c:23-62, on an input `cmd_clear_check` accepted. -/
def clearExec (s : Session V ρ) (input : Str) : Res (Session V ρ × Bool) :=
  if input = clearCommand then do
    let c ← clearFunctions s.ctx s.funs
    pure ({ s with ctx := c, funs := [] }, true)
  else do
    match ← s.ctx.lookup (input.drop (clearCommand.length + 1)) .function with
    | none => pure (s, false)
    | some (_, o) =>
      match takeRule o s.funs with
      | none => pure (s, false)
      | some (r, rest) => do
        let c ← removeNodeOp s.ctx r
        pure ({ s with ctx := c, funs := rest }, true)

/-! ## cmd_definition.c -/

/-- `cmd_definition_check`, src/client/commands/cmd_definition.c:25-28 -/
def definitionCheck (input : Str) : Bool := (strstr input "=".toList).isSome

/-- `get_type(t) == NTYPE_VARIABLE` -/
def Tree.isVariable : Tree V → Bool
  | .var _ _ _ => true
  | _ => false

/-- `do_left_checks`, cmd_definition.c:30-67: `none` is false, otherwise the tree in
which `list_variables` has numbered the variables. -/
def leftChecks : Tree V → Option (Tree V)
  | .op o cs i =>
    if o.placement ≠ .function then none
    else if cs.isEmpty then some (.op o cs i)
    else if cs.all Tree.isVariable then
      let r := listVariables maxMappedVars (.op o cs i)
      if !r.sufficient then none
      else if r.count ≠ cs.length then none
      else some r.tree
    else none
  | _ => none

/-- Number of children of the root. -/
def Tree.numChildren : Tree V → Nat
  | .op _ cs _ => cs.length
  | _ => 0

/-- The label `error` of `add_function`, cmd_definition.c:183-188. -/
def definitionFail (s : Session V ρ) (c : Ctx) (w : ρ) (name : Str) : Out (Session V ρ × Bool) := do
  let (c', _) ← Out.of (c.deleteOp name .function)
  pure ({ s with ctx := c', world := w }, false)

/-- `add_function` from the parsing of the right side on, cmd_definition.c:132-181.
`newOp` is the operator `new_op` points to.  A NULL result of `arith_simplify` is
passed on to `get_rule`, which dereferences it (rewrite_rule.c:42); line 148 checks
`left_tree` by mistake. -/
def addFunctionRight (K : Client V ε ρ) (s : Session V ρ) (c : Ctx) (name right : Str)
    (left : Tree V) (newOp : Op) : Out (Session V ρ × Bool) := do
  match ← Out.of (parseEasy c K.strtod right) with
  | none => definitionFail s c s.world name
  | some rt =>
    if (findOpNode newOp.id rt []).isSome then definitionFail s c s.world name
    else do
      let (w, r) ← arithSimplify K s.funs s.hist s.world rt
      match r with
      | none => .ub
      | some body =>
        match getPattern left [] with
        | .error _ => .ub
        | .ok pattern =>
          match getRule pattern body with
          | none => definitionFail s c w name
          | some rule => pure ({ s with ctx := c, funs := s.funs ++ [rule], world := w }, true)

/-- `add_function`, cmd_definition.c:69-189. -/
def addFunction (K : Client V ε ρ) (s : Session V ρ) (name left right : Str) (isConstant : Bool) :
    Out (Session V ρ × Bool) := do
  match ← Out.of (s.ctx.lookup name .function) with
  | some _ => pure (s, false)
  | none => do
    let (c1, a1) ← Out.of (s.ctx.addOp
      (if isConstant then Op.getConstant name else Op.getFunction name .dyn))
    match ← Out.of (parseEasy c1 K.strtod left) with
    | none => definitionFail s c1 s.world name
    | some lt =>
      match leftChecks lt with
      | none => definitionFail s c1 s.world name
      | some lt =>
        if isConstant then
          match a1 with
          | none => .ub
          | some a => do
            let newOp ← Out.of (c1.deref a)
            addFunctionRight K s c1 name right lt newOp
        else do
          let (c2, _) ← Out.of (c1.deleteOp name .function)
          let (c3, a3) ← Out.of (c2.addOp (Op.getFunction name (.fixed lt.numChildren)))
          match a3 with
          | none => .ub
          | some a => do
            let newOp ← Out.of (c3.deref a)
            addFunctionRight K s c3 name right (lt.setRootOp newOp) newOp

/-- `cmd_definition_exec`, cmd_definition.c:194-248, on an input
`cmd_definition_check` accepted. -/
def definitionExec (K : Client V ε ρ) (s : Session V ρ) (input : Str) : Out (Session V ρ × Bool) :=
  match strstr input "=".toList with
  | none => .ub
  | some k =>
    let left := input.take k
    let right := input.drop (k + 1)
    let tokens := (tokenize s.ctx.keywords left).filter fun t => !headIs isSpace t
    match tokens with
    | [] => pure (s, false)
    | name :: more =>
      if !headIs isLetter name then pure (s, false)
      else addFunction K s name left right more.isEmpty

/-! ## cmd_evaluation.c -/

/-- `arith_parse`, arith_context.c:227-237: `none` is false. -/
def arithParse (K : Client V ε ρ) (s : Session V ρ) (input : Str) :
    Out (Session V ρ × Option (Tree V)) := do
  match ← Out.of (parseEasy s.ctx K.strtod input) with
  | none => pure (s, none)
  | some t => do
    let (w, r) ← arithSimplify K s.funs s.hist s.world t
    pure ({ s with world := w }, r)

/-- `cmd_evaluation_exec`, src/client/commands/cmd_evaluation.c:22-35: the printed
tree, `none` if the command failed. -/
def evaluationExec (K : Client V ε ρ) (s : Session V ρ) (input : Str) :
    Out (Session V ρ × Option (Tree V)) := do
  match ← arithParse K s input with
  | (s', none) => pure (s', none)
  | (s', some (.const v i)) => pure ({ s' with hist := historyAdd s'.hist v }, some (.const v i))
  | (s', some t) => pure (s', some t)

end Verif
