import Verif.Model.Context
import Verif.Model.Tokenizer
import Verif.Model.Tree

/-!
# Parser (src/engine/parsing/parser.c)

Stacks are lists with the top first.  `strtod` (with the check that the whole
token is consumed) is a parameter.  Operators are looked up in an `Env`.
-/

namespace Verif

/-- `ParserError`, src/engine/parsing/parser.h:6-19 (the codes `parse_tokens`
can produce). -/
inductive PErr where
  | expectedInfix
  | unexpectedInfix
  | excessOpeningParen
  | unexpectedClosingParen
  | unexpectedDelimiter
  | functionWrongArity
  | unexpectedEndOfExpr
  | expectedParamList
  | unexpectedCharacter
deriving DecidableEq, Repr

/-- `struct OpData`, src/engine/parsing/parser.c:18-23; `op = none` is an
opening parenthesis. -/
structure OpData where
  op : Option Op
  arity : Nat
  token : Nat
deriving DecidableEq, Repr

/-- Result of `parse_tokens`: a tree, an error code with the index of the
offending token, PERR_SUCCESS although `*out_res` has never been written, or
undefined behaviour. -/
inductive PRes (V : Type) where
  | ok (t : Tree V)
  | err (e : PErr) (tok : Nat)
  | okUninit
  | ub

/-- `struct ParserState`, src/engine/parsing/parser.c:26-33, with the local
variables `await_infix` and `await_params` of `parse_tokens` (154-155). -/
structure PState (V : Type) where
  nodes : List (Tree V)
  ops : List OpData
  awaitInfix : Bool
  awaitParams : Bool

/-- Ways in which `op_pop_and_insert` fails. -/
inductive PopErr where
  | wrongArity (tok : Nat)
  | underflow
  | ub
deriving DecidableEq, Repr

/-- SIZE_MAX, the value of `OP_DYNAMIC_ARITY`. -/
def sizeMax : Nat := 2 ^ 64 - 1

variable {V : Type}

/-- `op_pop_and_insert`, src/engine/parsing/parser.c:62-95, for an entry `d`
already taken from the stack that carries the operator `o`: node stack after it.
Allocating a node with SIZE_MAX children overflows the size computation (`ub`);
this is modelled for operators whose arity is recorded as OP_DYNAMIC_ARITY, not
for a function with SIZE_MAX arguments. -/
def popInsert (o : Op) (d : OpData) (nodes : List (Tree V)) : Except PopErr (List (Tree V)) :=
  if o.arity ≠ .dyn ∧ o.arity ≠ .fixed d.arity then .error (.wrongArity d.token)
  else if d.arity = sizeMax ∧ o.placement ≠ .function then .error .ub
  else if nodes.length < d.arity then .error .underflow
  else .ok (.op o (nodes.take d.arity).reverse d.token :: nodes.drop d.arity)

/-- The loops `while (top of op stack is an operator that satisfies p)
op_pop_and_insert`, src/engine/parsing/parser.c:104-110, 221-228, 267-273. -/
def popWhile (p : Op → Bool) :
    List (Tree V) → List OpData → Except PopErr (List (Tree V) × List OpData)
  | nodes, [] => .ok (nodes, [])
  | nodes, d :: ds =>
    match d.op with
    | none => .ok (nodes, d :: ds)
    | some o =>
      if p o then
        match popInsert o d nodes with
        | .error e => .error e
        | .ok nodes' => popWhile p nodes' ds
      else .ok (nodes, d :: ds)

/-- Condition under which pushing `op` pops `top`, src/engine/parsing/parser.c:106-107. -/
def pops (op top : Op) : Bool :=
  op.prec < top.prec || (op.prec == top.prec && op.assoc == .left)

/-- Number of operands recorded when an operator is pushed,
src/engine/parsing/parser.c:123-130. -/
def startArity (op : Op) : Nat :=
  if op.placement = .function then 0
  else match op.arity with
    | .fixed n => n
    | .dyn => sizeMax

/-- `push_operator` and `op_push`, src/engine/parsing/parser.c:96-133. -/
def pushOperator (op : Op) (i : Nat) (nodes : List (Tree V)) (ops : List OpData) :
    Except PopErr (List (Tree V) × List OpData) :=
  if op.placement = .infix ∨ op.placement = .postfix then
    match popWhile (pops op) nodes ops with
    | .error e => .error e
    | .ok (nodes', ops') => .ok (nodes', ⟨some op, startArity op, i⟩ :: ops')
  else .ok (nodes, ⟨some op, startArity op, i⟩ :: ops)

/-- What a failing `op_pop_and_insert` followed by `goto exit` amounts to: with a
wrong arity `result` has been set; on underflow it still is PERR_SUCCESS. -/
def PopErr.exit : PopErr → PRes V
  | .wrongArity tok => .err .functionWrongArity tok
  | .underflow => .okUninit
  | .ub => .ub

/-- A failing `op_pop_and_insert` before a closing parenthesis,
src/engine/parsing/parser.c:223-227. -/
def PopErr.closing (i : Nat) : PopErr → PRes V
  | .ub => .ub
  | _ => .err .unexpectedClosingParen i

/-- Insertion of the glue operator, src/engine/parsing/parser.c:168-182. -/
def stepGlue (E : Env) (i : Nat) (tok : Str) (st : PState V) : Except (PRes V) (PState V) :=
  match E.glue with
  | none => .ok st
  | some g =>
    if st.awaitInfix && !isClosingParen tok && !isDelimiter tok
        && (E.lookup tok .infix).isNone && (E.lookup tok .postfix).isNone then
      match pushOperator g i st.nodes st.ops with
      | .error e => .error e.exit
      | .ok (nodes, d :: ops) =>
        .ok { st with nodes := nodes, ops := { d with arity := 2 } :: ops, awaitInfix := false }
      | .ok (_, []) => .error .ub
    else .ok st

/-- Closing parenthesis, src/engine/parsing/parser.c:217-261. -/
def stepClosing (i : Nat) (st : PState V) : Except (PRes V) (PState V) :=
  match popWhile (fun _ => true) st.nodes st.ops with
  | .error e => .error (e.closing i)
  | .ok (_, []) => .error (.err .unexpectedClosingParen i)
  | .ok (nodes, _ :: ops) =>
    if st.awaitInfix then
      match ops with
      | ⟨some o, a, k⟩ :: ops' =>
        if o.placement = .function then
          .ok { st with nodes := nodes, ops := ⟨some o, a + 1, k⟩ :: ops', awaitInfix := true }
        else .ok { st with nodes := nodes, ops := ops, awaitInfix := true }
      | _ => .ok { st with nodes := nodes, ops := ops, awaitInfix := true }
    else
      match ops with
      | ⟨some o, a, _⟩ :: _ =>
        if o.placement ≠ .function ∨ a ≠ 0 then .error (.err .unexpectedClosingParen i)
        else .ok { st with nodes := nodes, ops := ops, awaitInfix := true }
      | _ => .error (.err .unexpectedClosingParen i)

/-- Delimiter, src/engine/parsing/parser.c:263-298.  The entry below the opening
parenthesis is read as an operator without a check (line 280): undefined if it
is a parenthesis itself. -/
def stepDelimiter (i : Nat) (st : PState V) : Except (PRes V) (PState V) :=
  if !st.awaitInfix then .error (.err .unexpectedDelimiter i)
  else
    match popWhile (fun _ => true) st.nodes st.ops with
    | .error e => .error e.exit
    | .ok (nodes, p :: ⟨some o, a, k⟩ :: ops) =>
      if o.placement = .function then
        .ok { st with nodes := nodes, ops := p :: ⟨some o, a + 1, k⟩ :: ops, awaitInfix := false }
      else .error (.err .unexpectedDelimiter i)
    | .ok (_, _ :: ⟨none, _, _⟩ :: _) => .error .ub
    | .ok (_, _) => .error (.err .unexpectedDelimiter i)

/-- Leaf, src/engine/parsing/parser.c:353-384. -/
def stepLeaf (E : Env) (strtod : Str → Option V) (i : Nat) (tok : Str) (st : PState V) :
    Except (PRes V) (PState V) :=
  match strtod tok with
  | some v => .ok { st with nodes := .const v i :: st.nodes, awaitInfix := true }
  | none =>
    if (E.lookup tok .infix).isSome || (E.lookup tok .postfix).isSome then
      .error (.err .unexpectedInfix i)
    else if !headIs isLetter tok then .error (.err .unexpectedCharacter i)
    else .ok { st with nodes := .var tok 0 i :: st.nodes, awaitInfix := true }

/-- Operator or leaf where an operand is expected, src/engine/parsing/parser.c:305-330. -/
def stepOperand (E : Env) (strtod : Str → Option V) (i : Nat) (tok : Str) (st : PState V) :
    Except (PRes V) (PState V) :=
  match E.lookup tok .function with
  | some f =>
    match pushOperator f i st.nodes st.ops with
    | .error e => .error e.exit
    | .ok (nodes, ops) =>
      if f.arity = .fixed 0 then
        match ops with
        | [] => .error .ub
        | d :: ops' =>
          match popInsert f d nodes with
          | .error e => .error e.exit
          | .ok nodes' => .ok { st with nodes := nodes', ops := ops', awaitInfix := true }
      else .ok { st with nodes := nodes, ops := ops, awaitInfix := false, awaitParams := true }
  | none =>
    match E.lookup tok .prefix with
    | some p =>
      match pushOperator p i st.nodes st.ops with
      | .error e => .error e.exit
      | .ok (nodes, ops) => .ok { st with nodes := nodes, ops := ops, awaitInfix := false }
    | none => stepLeaf E strtod i tok st

/-- Operator after an operand, src/engine/parsing/parser.c:331-351.  The result
of `op_pop_and_insert` for a postfix operator is ignored: after an underflow all
nodes have been popped. -/
def stepOperator (E : Env) (i : Nat) (tok : Str) (st : PState V) :
    Except (PRes V) (PState V) :=
  match E.lookup tok .infix with
  | some o =>
    match pushOperator o i st.nodes st.ops with
    | .error e => .error e.exit
    | .ok (nodes, ops) => .ok { st with nodes := nodes, ops := ops, awaitInfix := false }
  | none =>
    match E.lookup tok .postfix with
    | some o =>
      match pushOperator o i st.nodes st.ops with
      | .error e => .error e.exit
      | .ok (_, []) => .error .ub
      | .ok (nodes, d :: ops) =>
        match popInsert o d nodes with
        | .error .ub => .error .ub
        | .error .underflow => .ok { st with nodes := [], ops := ops, awaitInfix := true }
        | .error (.wrongArity _) => .ok { st with nodes := nodes, ops := ops, awaitInfix := true }
        | .ok nodes' => .ok { st with nodes := nodes', ops := ops, awaitInfix := true }
    | none => .error (.err .expectedInfix i)

/-- One token that is no space, after the glue operator has been inserted,
src/engine/parsing/parser.c:184-384. -/
def stepRest (E : Env) (strtod : Str → Option V) (i : Nat) (tok : Str) (st : PState V) :
    Except (PRes V) (PState V) :=
  if isOpeningParen tok then
    if st.awaitInfix then .error (.err .expectedInfix i)
    else .ok { st with ops := ⟨none, sizeMax, i⟩ :: st.ops, awaitParams := false }
  else if st.awaitParams then .error (.err .expectedParamList i)
  else if isClosingParen tok then stepClosing i st
  else if isDelimiter tok then stepDelimiter i st
  else if st.awaitInfix then stepOperator E i tok st
  else stepOperand E strtod i tok st

/-- One iteration of the token loop, src/engine/parsing/parser.c:156-385. -/
def stepTok (E : Env) (strtod : Str → Option V) (i : Nat) (tok : Str) (st : PState V) :
    Except (PRes V) (PState V) :=
  if headIs isSpace tok then .ok st
  else
    match stepGlue E i tok st with
    | .error e => .error e
    | .ok st' => stepRest E strtod i tok st'

/-- The token loop on numbered tokens, src/engine/parsing/parser.c:156-385. -/
def runToks (E : Env) (strtod : Str → Option V) :
    List (Nat × Str) → PState V → Except (PRes V) (PState V)
  | [], st => .ok st
  | (i, tok) :: rest, st =>
    match stepTok E strtod i tok st with
    | .error e => .error e
    | .ok st' => runToks E strtod rest st'

/-- After the last token, src/engine/parsing/parser.c:387-422; `n` is the number
of tokens.  With the operator stack empty the result is popped from the node
stack (an empty stack would be read through NULL). -/
def finish (n : Nat) (st : PState V) : PRes V :=
  if st.awaitParams then .err .expectedParamList n
  else if !st.awaitInfix then .err .unexpectedEndOfExpr n
  else
    match popWhile (fun _ => true) st.nodes st.ops with
    | .error e => e.exit
    | .ok (_, _ :: _) => .err .excessOpeningParen n
    | .ok ([], []) => .ub
    | .ok (t :: _, []) => .ok t

def PState.init : PState V := ⟨[], [], false, false⟩

/-- `parse_tokens` on tokens numbered arbitrarily. -/
def parseIdx (E : Env) (strtod : Str → Option V) (toks : List (Nat × Str)) (n : Nat) : PRes V :=
  match runToks E strtod toks PState.init with
  | .error r => r
  | .ok st => finish n st

/-- Numbering of a list from `k`. -/
def number {α : Type} (k : Nat) : List α → List (Nat × α)
  | [] => []
  | a :: as => (k, a) :: number (k + 1) as

/-- `parse_tokens`, src/engine/parsing/parser.c:145-440 (arguments not NULL). -/
def parseTokens (E : Env) (strtod : Str → Option V) (toks : List Str) : PRes V :=
  parseIdx E strtod (number 0 toks) toks.length

end Verif
