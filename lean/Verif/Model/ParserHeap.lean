import Verif.Model.NodeHeap
import Verif.Model.Parser

/-!
# The nodes of the parser in memory (src/engine/parsing/parser.c)

The parser of Model/Parser again, with nodes that are allocated and freed as in
Model/NodeHeap.  `vec_nodes` holds pointers.  The buffers of the two vectors are not
part of the memory here: they are created and destroyed in `parse_tokens` itself, on
every path (lines 146-151, 436-437); so is the tokens' memory, which belongs to the
caller.

`free_tree` is given three calls for every allocation (`enough`), and those for the
children of an incomplete node.
-/

namespace Verif
variable {V : Type}

/-- `struct ParserState` with `await_infix` and `await_params`, parser.c:26-33 and
154-155; the operators are as in `PState`, the nodes are pointers, top first. -/
structure HState (V : Type) where
  mem : Mem V
  nodes : List Nat
  ops : List OpData
  awaitInfix : Bool
  awaitParams : Bool

/-- The state at the label `exit`, parser.c:424: `state.result` with `state.curr_tok`,
`none` for PERR_SUCCESS. -/
structure HExit (V : Type) where
  result : Option (PErr × Nat)
  mem : Mem V
  nodes : List Nat

/-- What `parse_tokens` returns; `ok none` is PERR_SUCCESS with `out_res` NULL. -/
inductive HRes where
  | ok (p : Option Nat)
  | err (e : PErr) (tok : Nat)
  | okUninit
deriving DecidableEq, Repr

/-- Ways in which `op_pop_and_insert` returns false. -/
inductive HPop where
  | wrongArity (tok : Nat)
  | underflow
deriving DecidableEq, Repr

/-- A number of calls that is enough for freeing a tree. -/
def Mem.enough (m : Mem V) : Nat := 3 * m.cells.length

/-- The loop of `op_pop_and_insert`, parser.c:78-88, with `left` children of the new
node `r` to go: whether it succeeded, memory and `vec_nodes`; `arity` is the number of
children of `r`. -/
def popChildren (arity : Nat) : (left : Nat) → Mem V → List Nat → (r : Nat) →
    Out (Bool × Mem V × List Nat)
  | 0, m, nodes, _ => .ok (true, m, nodes)
  | n + 1, m, p :: nodes, r => do
    let m' ← m.setChild r n (some p)
    popChildren arity n m' nodes r
  | _ + 1, m, [], r => do
    let m' ← freeTree (m.enough + arity + 3) m (some r)
    pure (false, m', [])

/-- `op_pop_and_insert`, parser.c:62-95, for an entry `d` already taken from the stack
that carries the operator `o` (see `popInsert`). -/
def popInsertH (M : Malloc V) (o : Op) (d : OpData) (m : Mem V) (nodes : List Nat) :
    Out (Except (HPop × Mem V × List Nat) (Mem V × List Nat)) :=
  if o.arity ≠ .dyn ∧ o.arity ≠ .fixed d.arity then .ok (.error (.wrongArity d.token, m, nodes))
  else if d.arity = sizeMax ∧ o.placement ≠ .function then .ub
  else do
    let a := m.alloc M (.op o (List.replicate d.arity none) d.token)
    let r ← popChildren d.arity d.arity a.2 nodes a.1
    if r.1 then pure (.ok (r.2.1, a.1 :: r.2.2))
    else pure (.error (.underflow, r.2.1, r.2.2))

/-- The loops around `op_pop_and_insert`, parser.c:104-110, 221-228, 267-273. -/
def popWhileH (M : Malloc V) (p : Op → Bool) : Mem V → List Nat → List OpData →
    Out (Except (HPop × Mem V × List Nat) (Mem V × List Nat × List OpData))
  | m, nodes, [] => .ok (.ok (m, nodes, []))
  | m, nodes, d :: ds =>
    match d.op with
    | none => .ok (.ok (m, nodes, d :: ds))
    | some o =>
      if p o then do
        match ← popInsertH M o d m nodes with
        | .error e => pure (.error e)
        | .ok r => popWhileH M p r.1 r.2 ds
      else .ok (.ok (m, nodes, d :: ds))

/-- `push_operator` and `op_push`, parser.c:96-133. -/
def pushOperatorH (M : Malloc V) (op : Op) (i : Nat) (m : Mem V) (nodes : List Nat)
    (ops : List OpData) : Out (Except (HPop × Mem V × List Nat) (Mem V × List Nat × List OpData)) :=
  if op.placement = .infix ∨ op.placement = .postfix then do
    match ← popWhileH M (pops op) m nodes ops with
    | .error e => pure (.error e)
    | .ok r => pure (.ok (r.1, r.2.1, ⟨some op, startArity op, i⟩ :: r.2.2))
  else .ok (.ok (m, nodes, ⟨some op, startArity op, i⟩ :: ops))

/-- `goto exit` after a failing `op_pop_and_insert`. -/
def HPop.exit : HPop × Mem V × List Nat → HExit V
  | (.wrongArity tok, m, nodes) => ⟨some (.functionWrongArity, tok), m, nodes⟩
  | (.underflow, m, nodes) => ⟨none, m, nodes⟩

/-- `ERROR(type)`, parser.c:12-15. -/
def HState.fail (st : HState V) (e : PErr) (tok : Nat) : Except (HExit V) (HState V) :=
  .error ⟨some (e, tok), st.mem, st.nodes⟩

/-- Insertion of the glue operator, parser.c:168-182. -/
def stepGlueH (M : Malloc V) (E : Env) (i : Nat) (tok : Str) (st : HState V) :
    Out (Except (HExit V) (HState V)) :=
  match E.glue with
  | none => .ok (.ok st)
  | some g =>
    if st.awaitInfix && !isClosingParen tok && !isDelimiter tok
        && (E.lookup tok .infix).isNone && (E.lookup tok .postfix).isNone then do
      match ← pushOperatorH M g i st.mem st.nodes st.ops with
      | .error e => pure (.error (HPop.exit e))
      | .ok (m, nodes, d :: ops) =>
        pure (.ok { st with mem := m, nodes := nodes, ops := { d with arity := 2 } :: ops, awaitInfix := false })
      | .ok (_, _, []) => .ub
    else .ok (.ok st)

/-- Closing parenthesis, parser.c:217-261. -/
def stepClosingH (M : Malloc V) (i : Nat) (st : HState V) : Out (Except (HExit V) (HState V)) := do
  match ← popWhileH M (fun _ => true) st.mem st.nodes st.ops with
  | .error e => pure (.error ⟨some (.unexpectedClosingParen, i), e.2.1, e.2.2⟩)
  | .ok (m, nodes, []) => pure (.error ⟨some (.unexpectedClosingParen, i), m, nodes⟩)
  | .ok (m, nodes, _ :: ops) =>
    if st.awaitInfix then
      match ops with
      | ⟨some o, a, k⟩ :: ops' =>
        if o.placement = .function then
          pure (.ok { st with mem := m, nodes := nodes, ops := ⟨some o, a + 1, k⟩ :: ops', awaitInfix := true })
        else pure (.ok { st with mem := m, nodes := nodes, ops := ops, awaitInfix := true })
      | _ => pure (.ok { st with mem := m, nodes := nodes, ops := ops, awaitInfix := true })
    else
      match ops with
      | ⟨some o, a, _⟩ :: _ =>
        if o.placement ≠ .function ∨ a ≠ 0 then
          pure (.error ⟨some (.unexpectedClosingParen, i), m, nodes⟩)
        else pure (.ok { st with mem := m, nodes := nodes, ops := ops, awaitInfix := true })
      | _ => pure (.error ⟨some (.unexpectedClosingParen, i), m, nodes⟩)

/-- Delimiter, parser.c:263-298. -/
def stepDelimiterH (M : Malloc V) (i : Nat) (st : HState V) : Out (Except (HExit V) (HState V)) :=
  if !st.awaitInfix then .ok (st.fail .unexpectedDelimiter i)
  else do
    match ← popWhileH M (fun _ => true) st.mem st.nodes st.ops with
    | .error e => pure (.error (HPop.exit e))
    | .ok (m, nodes, p :: ⟨some o, a, k⟩ :: ops) =>
      if o.placement = .function then
        pure (.ok { st with mem := m, nodes := nodes, ops := p :: ⟨some o, a + 1, k⟩ :: ops, awaitInfix := false })
      else pure (.error ⟨some (.unexpectedDelimiter, i), m, nodes⟩)
    | .ok (_, _, _ :: ⟨none, _, _⟩ :: _) => .ub
    | .ok (m, nodes, _) => pure (.error ⟨some (.unexpectedDelimiter, i), m, nodes⟩)

/-- Leaf, parser.c:353-384. -/
def stepLeafH (M : Malloc V) (E : Env) (strtod : Str → Option V) (i : Nat) (tok : Str) (st : HState V) :
    Except (HExit V) (HState V) :=
  match strtod tok with
  | some v =>
    let a := st.mem.alloc M (.const v i)
    .ok { st with mem := a.2, nodes := a.1 :: st.nodes, awaitInfix := true }
  | none =>
    if (E.lookup tok .infix).isSome || (E.lookup tok .postfix).isSome then st.fail .unexpectedInfix i
    else if !headIs isLetter tok then st.fail .unexpectedCharacter i
    else
      let a := st.mem.alloc M (.var tok 0 i)
      .ok { st with mem := a.2, nodes := a.1 :: st.nodes, awaitInfix := true }

/-- Operator or leaf where an operand is expected, parser.c:305-330. -/
def stepOperandH (M : Malloc V) (E : Env) (strtod : Str → Option V) (i : Nat) (tok : Str) (st : HState V) :
    Out (Except (HExit V) (HState V)) :=
  match E.lookup tok .function with
  | some f => do
    match ← pushOperatorH M f i st.mem st.nodes st.ops with
    | .error e => pure (.error (HPop.exit e))
    | .ok (m, nodes, ops) =>
      if f.arity = .fixed 0 then
        match ops with
        | [] => .ub
        | d :: ops' => do
          match ← popInsertH M f d m nodes with
          | .error e => pure (.error (HPop.exit e))
          | .ok r => pure (.ok { st with mem := r.1, nodes := r.2, ops := ops', awaitInfix := true })
      else
        pure (.ok { st with mem := m, nodes := nodes, ops := ops, awaitInfix := false, awaitParams := true })
  | none =>
    match E.lookup tok .prefix with
    | some p => do
      match ← pushOperatorH M p i st.mem st.nodes st.ops with
      | .error e => pure (.error (HPop.exit e))
      | .ok (m, nodes, ops) =>
        pure (.ok { st with mem := m, nodes := nodes, ops := ops, awaitInfix := false })
    | none => .ok (stepLeafH M E strtod i tok st)

/-- Operator after an operand, parser.c:331-351.  The result of `op_pop_and_insert` for a
postfix operator is ignored (a wrong arity cannot occur: the number recorded for a
postfix operator is its own arity). -/
def stepOperatorH (M : Malloc V) (E : Env) (i : Nat) (tok : Str) (st : HState V) :
    Out (Except (HExit V) (HState V)) :=
  match E.lookup tok .infix with
  | some o => do
    match ← pushOperatorH M o i st.mem st.nodes st.ops with
    | .error e => pure (.error (HPop.exit e))
    | .ok (m, nodes, ops) =>
      pure (.ok { st with mem := m, nodes := nodes, ops := ops, awaitInfix := false })
  | none =>
    match E.lookup tok .postfix with
    | some o => do
      match ← pushOperatorH M o i st.mem st.nodes st.ops with
      | .error e => pure (.error (HPop.exit e))
      | .ok (_, _, []) => .ub
      | .ok (m, nodes, d :: ops) => do
        match ← popInsertH M o d m nodes with
        | .error e => pure (.ok { st with mem := e.2.1, nodes := e.2.2, ops := ops, awaitInfix := true })
        | .ok r => pure (.ok { st with mem := r.1, nodes := r.2, ops := ops, awaitInfix := true })
    | none => .ok (st.fail .expectedInfix i)

/-- One token that is no space, after the glue operator has been inserted,
parser.c:184-384. -/
def stepRestH (M : Malloc V) (E : Env) (strtod : Str → Option V) (i : Nat) (tok : Str) (st : HState V) :
    Out (Except (HExit V) (HState V)) :=
  if isOpeningParen tok then
    if st.awaitInfix then .ok (st.fail .expectedInfix i)
    else .ok (.ok { st with ops := ⟨none, sizeMax, i⟩ :: st.ops, awaitParams := false })
  else if st.awaitParams then .ok (st.fail .expectedParamList i)
  else if isClosingParen tok then stepClosingH M i st
  else if isDelimiter tok then stepDelimiterH M i st
  else if st.awaitInfix then stepOperatorH M E i tok st
  else stepOperandH M E strtod i tok st

/-- One iteration of the token loop, parser.c:156-385. -/
def stepTokH (M : Malloc V) (E : Env) (strtod : Str → Option V) (i : Nat) (tok : Str) (st : HState V) :
    Out (Except (HExit V) (HState V)) :=
  if headIs isSpace tok then .ok (.ok st)
  else do
    match ← stepGlueH M E i tok st with
    | .error e => pure (.error e)
    | .ok st' => stepRestH M E strtod i tok st'

/-- The token loop, parser.c:156-385. -/
def runToksH (M : Malloc V) (E : Env) (strtod : Str → Option V) :
    List (Nat × Str) → HState V → Out (Except (HExit V) (HState V))
  | [], st => .ok (.ok st)
  | (i, tok) :: rest, st => do
    match ← stepTokH M E strtod i tok st with
    | .error e => pure (.error e)
    | .ok st' => runToksH M E strtod rest st'

/-- The loop at the end, parser.c:430-435. -/
def freeNodes : Mem V → List Nat → Out (Mem V)
  | m, [] => .ok m
  | m, p :: nodes => do
    let m' ← freeTree m.enough m (some p)
    freeNodes m' nodes

/-- After the label `exit`, parser.c:424-438, if `*out_res` has not been written; `keep`
is `out_res != NULL`. -/
def leave (keep : Bool) (x : HExit V) : Out (HRes × Mem V) :=
  match x.result with
  | some (e, k) => do
    let m ← freeNodes x.mem x.nodes
    pure (.err e k, m)
  | none =>
    if keep then pure (.okUninit, x.mem)
    else do
      let m ← freeNodes x.mem x.nodes
      pure (.ok none, m)

/-- After the last token, parser.c:387-438; `n` is the number of tokens. -/
def finishH (M : Malloc V) (keep : Bool) (n : Nat) (st : HState V) : Out (HRes × Mem V) :=
  if st.awaitParams then leave keep ⟨some (.expectedParamList, n), st.mem, st.nodes⟩
  else if !st.awaitInfix then leave keep ⟨some (.unexpectedEndOfExpr, n), st.mem, st.nodes⟩
  else do
    match ← popWhileH M (fun _ => true) st.mem st.nodes st.ops with
    | .error e => leave keep (HPop.exit e)
    | .ok (m, nodes, _ :: _) => leave keep ⟨some (.excessOpeningParen, n), m, nodes⟩
    | .ok (m, nodes, []) =>
      if keep then
        match nodes with
        | [] => .ub
        | p :: _ => pure (.ok (some p), m)
      else leave keep ⟨none, m, nodes⟩

/-- `parse_tokens`, parser.c:145-440, from the memory `m` (`ctx` and `tokens` not NULL);
`keep` is `out_res != NULL`. -/
def parseHeap (M : Malloc V) (keep : Bool) (E : Env) (strtod : Str → Option V) (toks : List Str)
    (m : Mem V) : Out (HRes × Mem V) := do
  match ← runToksH M E strtod (number 0 toks) ⟨m, [], [], false, false⟩ with
  | .error x => leave keep x
  | .ok st => finishH M keep toks.length st

end Verif
