import Verif.Model.Session

/-!
# Token texts in memory

The texts that `tokenize` allocates and the buffers of the vectors that hold them: `tokenize`, `free_tokens`,
`parse_input`, `parse_easy`, `free_result`, and the commands that evaluate, define and clear, as far as they
concern these texts.  Trees, rules and the context are values, as in Model/Session; in addition it is recorded
where the name of each operator that has been defined by the user is stored (`Operator.name` is a pointer,
src/engine/tree/operator.h:25).  The names of built-in operators are literals.

A vector that grows keeps the address of its buffer.  Showing an error reads all the texts, not only
those up to the token in question (positions are the subject of C09 and C83).
-/

namespace Verif
variable {V ε ρ : Type}

/-- What has been allocated: a text, or the buffer of a vector. -/
inductive TextBlock where
  | text (s : Str)
  | buffer
deriving DecidableEq, Repr

/-- The memory. -/
structure TextMem where
  blocks : List (Nat × TextBlock)

/-- `malloc`: returns an address that is not in use. -/
structure TextMalloc where
  pick : List (Nat × TextBlock) → Nat
  fresh : ∀ blocks, ∀ b ∈ blocks, b.1 ≠ pick blocks

namespace TextMem

/-- What is allocated at an address. -/
def get (m : TextMem) (p : Nat) : Option TextBlock := (m.blocks.find? fun b => b.1 = p).map (·.2)

/-- `malloc_wrapper`, src/util/alloc_wrappers.c:7-15, with the initialization. -/
def alloc (A : TextMalloc) (m : TextMem) (b : TextBlock) : Nat × TextMem :=
  (A.pick m.blocks, ⟨(A.pick m.blocks, b) :: m.blocks⟩)

/-- `free(p)` -/
def free (m : TextMem) (p : Nat) : Res TextMem :=
  match m.get p with
  | some _ => .ok ⟨m.blocks.filter fun b => b.1 ≠ p⟩
  | none => .ub

/-- Reading the text at an address. -/
def read (m : TextMem) (p : Nat) : Res Str :=
  match m.get p with
  | some (.text s) => .ok s
  | _ => .ub

/-- Reading several texts. -/
def readAll (m : TextMem) : List Nat → Res (List Str)
  | [] => .ok []
  | p :: ps => do
    let s ← m.read p
    let ss ← m.readAll ps
    pure (s :: ss)

/-- The loop of `free_tokens`, src/engine/parsing/tokenizer.c:92-95. -/
def freeAll (m : TextMem) : List Nat → Res TextMem
  | [] => .ok m
  | p :: ps => do
    let m' ← m.free p
    m'.freeAll ps

end TextMem

/-! ## tokenizer.c -/

/-- The vector of tokens. -/
structure TokenVec where
  buffer : Nat
  toks : List Nat

/-- `push_token`, src/engine/parsing/tokenizer.c:21-31 -/
def pushTokenAt (A : TextMalloc) (toks : List Nat) (tok : Str) (m : TextMem) : List Nat × TextMem :=
  if tok.length == 0 then (toks, m)
  else
    let a := m.alloc A (.text tok)
    (toks ++ [a.1], a.2)

/-- The loop of `tokenize`, tokenizer.c:46-86, as `tokLoop`. -/
def tokLoopAt (A : TextMalloc) (kw : Trie Unit) (inp : Str) :
    (fuel i start : Nat) → TokState → List Nat → TextMem → List Nat × TextMem
  | 0, _, start, _, toks, m => pushTokenAt A toks ((inp.drop start).take (inp.length - start)) m
  | fuel + 1, i, start, st, toks, m =>
    match inp[i]? with
    | none => pushTokenAt A toks ((inp.drop start).take (inp.length - start)) m
    | some c =>
      let next := classify c
      let ended := st != .new && (next != st || next == .other)
      let r := if ended then pushTokenAt A toks ((inp.drop start).take (i - start)) m else (toks, m)
      let start1 := if ended then i else start
      let len := if next != .letter then (kw.longestPrefix (inp.drop i)).1 else 0
      if len > 0 then
        let q := pushTokenAt A r.1 ((inp.drop i).take len) r.2
        tokLoopAt A kw inp fuel (i + len) (start1 + len) .new q.1 q.2
      else
        tokLoopAt A kw inp fuel (i + 1) start1 next r.1 r.2

/-- `tokenize`, tokenizer.c:40-87 -/
def tokenizeAt (A : TextMalloc) (kw : Trie Unit) (inp : Str) (m : TextMem) : TokenVec × TextMem :=
  let b := m.alloc A .buffer
  let r := tokLoopAt A kw inp inp.length 0 0 .new [] b.2
  (⟨b.1, r.1⟩, r.2)

/-- `free_tokens`, tokenizer.c:89-97 -/
def freeTokens (v : TokenVec) (m : TextMem) : Res TextMem := do
  let m' ← m.freeAll v.toks
  m'.free v.buffer

/-! ## parser.c -/

/-- `ParsingResult`, src/engine/parsing/parser.h:21-26, without the tree: `null` says that `error` is `PERR_NULL`. -/
structure TokenResult where
  tokens : TokenVec
  null : Bool

/-- `parse_input`, src/engine/parsing/parser.c:448-453 -/
def parseInputAt (A : TextMalloc) (c : Ctx) (strtod : Str → Option V) (inp : Str) (m : TextMem) :
    Res (PRes V × TokenResult × TextMem) := do
  let t := tokenizeAt A c.keywords inp m
  let texts ← t.2.readAll t.1.toks
  pure (parseTokens c.env strtod texts, ⟨t.1, false⟩, t.2)

/-- `free_result`, parser.c:470-482; trees are the subject of Model/ParserHeap. -/
def freeResult (r : TokenResult) (m : TextMem) : Res (TokenResult × TextMem) :=
  if r.null then .ok (r, m)
  else do
    let m' ← freeTokens r.tokens m
    pure ({ r with null := true }, m')

/-- `parse_easy`, parser.c:455-468 -/
def parseEasyText (A : TextMalloc) (c : Ctx) (strtod : Str → Option V) (inp : Str) (m : TextMem) :
    Res (Option (Tree V) × TextMem) := do
  let p ← parseInputAt A c strtod inp m
  match p.1 with
  | .err _ _ => do
    let f ← freeResult p.2.1 p.2.2
    pure (none, f.2)
  | .ok t => do
    let f ← freeResult p.2.1 p.2.2
    pure (some t, f.2)
  | .okUninit => .ub
  | .ub => .ub

/-! ## arith_context.c -/

/-- `arith_parse_raw`, src/client/core/arith_context.c:242-254 -/
def parseRawText (A : TextMalloc) (c : Ctx) (strtod : Str → Option V) (inp : Str) (m : TextMem) :
    Res (Option (Tree V) × TokenResult × TextMem) := do
  let p ← parseInputAt A c strtod inp m
  match p.1 with
  | .err _ _ => do
    let _ ← p.2.2.readAll p.2.1.tokens.toks
    let f ← freeResult p.2.1 p.2.2
    pure (none, f.1, f.2)
  | .ok t => pure (some t, p.2.1, p.2.2)
  | .okUninit => .ub
  | .ub => .ub

/-- The end of `arith_simplify`, arith_context.c:266-277: whether there was an error decides whether the texts
are read once more. -/
def endSimplifyText (failed : Bool) (r : TokenResult) (m : TextMem) : Res TextMem :=
  if failed then do
    let _ ← m.readAll r.tokens.toks
    let f ← freeResult r m
    pure f.2
  else do
    let f ← freeResult r m
    pure f.2

/-- `arith_simplify`, arith_context.c:260-278 -/
def simplifyText (K : Client V ε ρ) (funs : List (RewriteRule V)) (hist : List V) (w : ρ) (t : Tree V)
    (r : TokenResult) (m : TextMem) : Out ((ρ × Option (Tree V)) × TextMem) := do
  let x ← arithSimplify K funs hist w t
  let m' ← Out.of (endSimplifyText x.2.isNone r m)
  pure (x, m')

/-- The global variables, and where the names of the user's operators are: pairs of the address of the
operator and that of the text. -/
structure TextSession (V ρ : Type) where
  sess : Session V ρ
  names : List (Nat × Nat)
  mem : TextMem

/-- `ctx_add_op`, src/engine/parsing/context.c:69-102, of an operator whose name is at `p`. -/
def addNamed (c : Ctx) (names : List (Nat × Nat)) (o : Op) (p : Nat) :
    Res (Ctx × Option Nat × List (Nat × Nat)) := do
  let r ← c.addOp o
  pure (r.1, r.2, names ++ (r.2.map fun a => (a, p)).toList)

/-- `ctx_delete_op`, context.c:108-122, of the function whose name is at `p`; the operators that are left keep
their names. -/
def deleteNamed (c : Ctx) (names : List (Nat × Nat)) (p : Nat) (m : TextMem) :
    Res (Ctx × List (Nat × Nat)) := do
  let name ← m.read p
  let r ← c.deleteOp name .function
  pure (r.1, names.filter fun q => r.1.ops.any fun x => x.1 == q.1)

/-- `get_op(rule->pattern.pattern)->name`: where the name of the operator of a rule is.  Operators are
compared as in `takeRule`. -/
def namePtr (c : Ctx) (names : List (Nat × Nat)) (rule : RewriteRule V) : Res Nat :=
  match c.ops.find? fun q => some q.2 = rule.pattern.tree.rootOp with
  | none => .ub
  | some q =>
    match names.find? fun n => n.1 = q.1 with
    | none => .ub
    | some n => .ok n.2

/-- `remove_node`, arith_context.c:110-122 -/
def removeNodeText (c : Ctx) (names : List (Nat × Nat)) (rule : RewriteRule V) (m : TextMem) :
    Res (Ctx × List (Nat × Nat) × TextMem) := do
  let p ← namePtr c names rule
  let d ← deleteNamed c names p m
  let m' ← m.free p
  pure (d.1, d.2, m')

/-- `clear_composite_functions`, arith_context.c:143-149 -/
def clearFunctionsText (c : Ctx) (names : List (Nat × Nat)) :
    List (RewriteRule V) → TextMem → Res (Ctx × List (Nat × Nat) × TextMem)
  | [], m => .ok (c, names, m)
  | r :: rs, m => do
    let x ← removeNodeText c names r m
    clearFunctionsText x.1 x.2.1 rs x.2.2

/-! ## cmd_clear.c -/

/-- `cmd_clear_exec`, src/client/commands/cmd_clear.c:23-62 -/
def clearText (s : TextSession V ρ) (input : Str) : Res (TextSession V ρ × Bool) :=
  if input = clearCommand then do
    let x ← clearFunctionsText s.sess.ctx s.names s.sess.funs s.mem
    pure (⟨{ s.sess with ctx := x.1, funs := [] }, x.2.1, x.2.2⟩, true)
  else do
    match ← s.sess.ctx.lookup (input.drop (clearCommand.length + 1)) .function with
    | none => pure (s, false)
    | some (_, o) =>
      match takeRule o s.sess.funs with
      | none => pure (s, false)
      | some (r, rest) => do
        let x ← removeNodeText s.sess.ctx s.names r s.mem
        pure (⟨{ s.sess with ctx := x.1, funs := rest }, x.2.1, x.2.2⟩, true)

/-! ## cmd_evaluation.c -/

/-- `cmd_evaluation_exec`, src/client/commands/cmd_evaluation.c:22-35, with `arith_parse`
(arith_context.c:227-237). -/
def evaluateText (A : TextMalloc) (K : Client V ε ρ) (s : TextSession V ρ) (input : Str) :
    Out (TextSession V ρ × Option (Tree V)) := do
  let p ← Out.of (parseRawText A s.sess.ctx K.strtod input s.mem)
  match p.1 with
  | none => pure ({ s with mem := p.2.2 }, none)
  | some t => do
    let x ← simplifyText K s.sess.funs s.sess.hist s.sess.world t p.2.1 p.2.2
    match x.1.2 with
    | some (.const v i) =>
      pure (⟨{ s.sess with world := x.1.1, hist := historyAdd s.sess.hist v }, s.names, x.2⟩, some (.const v i))
    | r => pure (⟨{ s.sess with world := x.1.1 }, s.names, x.2⟩, r)

/-! ## cmd_definition.c -/

/-- The label `error` of `add_function`, src/client/commands/cmd_definition.c:183-188. -/
def definitionFailText (s : Session V ρ) (c : Ctx) (names : List (Nat × Nat)) (w : ρ) (p : Nat) (m : TextMem) :
    Out (TextSession V ρ × Bool) := do
  let d ← Out.of (deleteNamed c names p m)
  let m' ← Out.of (m.free p)
  pure (⟨{ s with ctx := d.1, world := w }, d.2, m'⟩, false)

/-- `add_function` from the parsing of the right side on, cmd_definition.c:132-181. -/
def addFunctionRightText (A : TextMalloc) (K : Client V ε ρ) (s : Session V ρ) (c : Ctx) (names : List (Nat × Nat))
    (p : Nat) (right : Str) (left : Tree V) (newOp : Op) (m : TextMem) : Out (TextSession V ρ × Bool) := do
  let r ← Out.of (parseRawText A c K.strtod right m)
  match r.1 with
  | none => definitionFailText s c names s.world p r.2.2
  | some rt =>
    if (findOpNode newOp.id rt []).isSome then do
      let f ← Out.of (freeResult r.2.1 r.2.2)
      definitionFailText s c names s.world p f.2
    else do
      let x ← simplifyText K s.funs s.hist s.world rt r.2.1 r.2.2
      match x.1.2 with
      | none => .ub
      | some body =>
        match getPattern left [] with
        | .error _ => .ub
        | .ok pattern =>
          match getRule pattern body with
          | none => definitionFailText s c names x.1.1 p x.2
          | some rule =>
            pure (⟨{ s with ctx := c, funs := s.funs ++ [rule], world := x.1.1 }, names, x.2⟩, true)

/-- `add_function` from line 121 of cmd_definition.c on. -/
def addFunctionOpText (A : TextMalloc) (K : Client V ε ρ) (s : Session V ρ) (c : Ctx × Option Nat × List (Nat × Nat))
    (p : Nat) (right : Str) (isConstant : Bool) (lt : Tree V) (m : TextMem) : Out (TextSession V ρ × Bool) :=
  if isConstant then
    match c.2.1 with
    | none => .ub
    | some a => do
      let newOp ← Out.of (c.1.deref a)
      addFunctionRightText A K s c.1 c.2.2 p right lt newOp m
  else do
    let d ← Out.of (deleteNamed c.1 c.2.2 p m)
    let name ← Out.of (m.read p)
    let e ← Out.of (addNamed d.1 d.2 (Op.getFunction name (.fixed lt.numChildren)) p)
    match e.2.1 with
    | none => .ub
    | some a => do
      let newOp ← Out.of (e.1.deref a)
      addFunctionRightText A K s e.1 e.2.2 p right (lt.setRootOp newOp) newOp m

/-- `add_function`, cmd_definition.c:69-189; the name is at `p`. -/
def addFunctionText (A : TextMalloc) (K : Client V ε ρ) (s : TextSession V ρ) (p : Nat) (left right : Str)
    (isConstant : Bool) : Out (TextSession V ρ × Bool) := do
  let name ← Out.of (s.mem.read p)
  match ← Out.of (s.sess.ctx.lookup name .function) with
  | some _ => do
    let m ← Out.of (s.mem.free p)
    pure ({ s with mem := m }, false)
  | none => do
    let c ← Out.of (addNamed s.sess.ctx s.names
      (if isConstant then Op.getConstant name else Op.getFunction name .dyn) p)
    let r ← Out.of (parseRawText A c.1 K.strtod left s.mem)
    match r.1 with
    | none => definitionFailText s.sess c.1 c.2.2 s.sess.world p r.2.2
    | some lt => do
      let f ← Out.of (freeResult r.2.1 r.2.2)
      match leftChecks lt with
      | none => definitionFailText s.sess c.1 c.2.2 s.sess.world p f.2
      | some lt => addFunctionOpText A K s.sess c p right isConstant lt f.2

/-- The loop of `cmd_definition_exec`, cmd_definition.c:205-226: the name, the number of tokens that are not
spaces, and the memory. -/
def pickName : List Nat → Option Nat → Nat → TextMem → Res (Option Nat × Nat × TextMem)
  | [], name, n, m => .ok (name, n, m)
  | p :: ps, name, n, m => do
    let tok ← m.read p
    if headIs isSpace tok then do
      let m' ← m.free p
      pickName ps name n m'
    else
      match name with
      | none => pickName ps (some p) (n + 1) m
      | some q => do
        let m' ← m.free p
        pickName ps (some q) (n + 1) m'

/-- `cmd_definition_exec`, cmd_definition.c:194-248 -/
def definitionText (A : TextMalloc) (K : Client V ε ρ) (s : TextSession V ρ) (input : Str) :
    Out (TextSession V ρ × Bool) :=
  match strstr input "=".toList with
  | none => .ub
  | some k => do
    let t := tokenizeAt A s.sess.ctx.keywords (input.take k) s.mem
    let x ← Out.of (pickName t.1.toks none 0 t.2)
    let m ← Out.of (x.2.2.free t.1.buffer)
    match x.1 with
    | none => pure ({ s with mem := m }, false)
    | some p => do
      let name ← Out.of (m.read p)
      if !headIs isLetter name then do
        let m' ← Out.of (m.free p)
        pure ({ s with mem := m' }, false)
      else addFunctionText A K { s with mem := m } p (input.take k) (input.drop (k + 1)) (x.2.1 == 1)

/-! ## A session -/

/-- An input for one of these commands. -/
inductive TextInput where
  | evaluation (input : Str)
  | definition (input : Str)
  | clear (input : Str)

/-- One input. -/
def inputText (A : TextMalloc) (K : Client V ε ρ) (s : TextSession V ρ) : TextInput → Out (TextSession V ρ)
  | .evaluation input => do
    let r ← evaluateText A K s input
    pure r.1
  | .definition input => do
    let r ← definitionText A K s input
    pure r.1
  | .clear input => do
    let r ← Out.of (clearText s input)
    pure r.1

/-- One input after the other. -/
def sessionText (A : TextMalloc) (K : Client V ε ρ) : TextSession V ρ → List TextInput → Out (TextSession V ρ)
  | s, [] => .ok s
  | s, i :: is => do
    let s' ← inputText A K s i
    sessionText A K s' is

end Verif
