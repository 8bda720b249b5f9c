import Verif.Model.Operator
import Verif.Model.Trie

/-!
# Parsing context (src/engine/parsing/context.h, context.c)

Operators live in list nodes.  A list node's address is a number; `ops` is the
content of the doubly linked list in order (the list itself is the subject of
`Verif.Model.LinkedList`), paired with the addresses.  Trie payloads are
addresses, as in the C code.  Reading through an address that is not in the
list any more is undefined behaviour.
-/

namespace Verif

/-- `ParsingContext`, src/engine/parsing/context.h:7-13.  `nextAddr` is the next
address `malloc` hands out (addresses are not reused in the model). -/
structure Ctx where
  glue : Option Nat
  ops : List (Nat × Op)
  nextAddr : Nat
  tries : Placement → Trie Nat
  keywords : Trie Unit

namespace Ctx

/-- `ctx_create`, src/engine/parsing/context.c:11-26 -/
def create : Ctx := ⟨none, [], 0, fun _ => Trie.create, Trie.create⟩

/-- Dereferencing a pointer to a list node. -/
def deref (ctx : Ctx) (addr : Nat) : Res Op :=
  match ctx.ops.find? (fun p => p.1 == addr) with
  | some p => .ok p.2
  | none => .ub

/-- `ctx_lookup_op`, src/engine/parsing/context.c:145-160 (arguments not NULL):
address and operator found. -/
def lookup (ctx : Ctx) (name : Str) (pl : Placement) : Res (Option (Nat × Op)) :=
  match (ctx.tries pl).contains name with
  | (true, some addr) => do
    let op ← ctx.deref addr
    pure (some (addr, op))
  | (true, none) => .ub
  | (false, _) => .ok none

/-- Loop of the consistency check, src/engine/parsing/context.c:77-94: an infix
operator of the same precedence with another associativity exists. -/
def assocClash (ctx : Ctx) (op : Op) : Bool :=
  op.placement == .infix &&
    ctx.ops.any (fun p => p.2.placement == .infix && p.2.prec == op.prec && p.2.assoc != op.assoc)

/-- Replacing one of the four operator tries. -/
def setTrie (f : Placement → Trie Nat) (pl : Placement) (t : Trie Nat) : Placement → Trie Nat :=
  fun q => if q = pl then t else f q

/-- `ctx_add_op`, src/engine/parsing/context.c:69-102.  Returns the new context
and the address of the added operator, or `none` if it is refused. -/
def addOp (ctx : Ctx) (op : Op) : Res (Ctx × Option Nat) := do
  match ← ctx.lookup op.name op.placement with
  | some _ => pure (ctx, none)
  | none =>
    if ctx.assocClash op then pure (ctx, none)
    else do
      let op' := { op with id := ctx.ops.length }
      let addr := ctx.nextAddr
      let t ← (ctx.tries op.placement).addElem op.name addr
      let (k, _) ← ctx.keywords.addStr op.name
      pure (⟨ctx.glue, ctx.ops ++ [(addr, op')], addr + 1, setTrie ctx.tries op.placement t, k⟩,
        some addr)

/-- `ctx_add_ops`, src/engine/parsing/context.c:43-57: stops at the first refusal. -/
def addOps (ctx : Ctx) : List Op → Res (Ctx × Bool)
  | [] => .ok (ctx, true)
  | op :: ops => do
    match ← ctx.addOp op with
    | (c, none) => pure (c, false)
    | (c, some _) => c.addOps ops

/-- `ctx_delete_op`, src/engine/parsing/context.c:108-122.  The glue operator is
not touched, it may dangle afterwards. -/
def deleteOp (ctx : Ctx) (name : Str) (pl : Placement) : Res (Ctx × Bool) :=
  match (ctx.tries pl).contains name with
  | (true, some addr) => do
    let _ ← ctx.deref addr
    let k ← ctx.keywords.removeStr name
    let t ← (ctx.tries pl).removeStr name
    pure (⟨ctx.glue, ctx.ops.filter (fun p => p.1 != addr), ctx.nextAddr,
      setTrie ctx.tries pl t, k⟩, true)
  | (true, none) => .ub
  | (false, _) => .ok (ctx, false)

/-- `ctx_set_glue_op`, src/engine/parsing/context.c:128-139 (`ctx` not NULL). -/
def setGlue (ctx : Ctx) : Option Nat → Res (Ctx × Bool)
  | none => .ok ({ ctx with glue := none }, true)
  | some addr => do
    let op ← ctx.deref addr
    if op.arity != .fixed 2 && op.arity != .dyn then pure (ctx, false)
    else pure ({ ctx with glue := some addr }, true)

end Ctx

/-- What the parser sees of a context: operator lookup and glue operator. -/
structure Env where
  lookup : Str → Placement → Option Op
  glue : Option Op

/-- The parser's view of a context.  `Props/Context` proves that for contexts
built by the interface no lookup is undefined, so nothing is hidden here. -/
def Ctx.env (ctx : Ctx) : Env where
  lookup name pl :=
    match ctx.lookup name pl with
    | .ok (some p) => some p.2
    | _ => none
  glue := ctx.glue.bind fun a =>
    match ctx.deref a with
    | .ok op => some op
    | _ => none

end Verif
