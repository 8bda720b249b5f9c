import Verif.Model.DefinitionHeap

/-!
# Rules for simplification in memory

Reading rules and rule files, loading and unloading them, and the end of the program, on nodes in memory
(src/engine/transformation/rule_parsing.c, matching.c, rewrite_rule.c,
src/client/simplification/simplification.c, src/client/commands/commands.c).

Local variables of type `Node *` are values here: none of these functions passes their addresses on to
something that writes to them.  The texts in `str_cpy` and `str` and the vectors of rules are values, and
messages are left out, as in Model/RuleParsing.
-/

namespace Verif
variable {V ε : Type}

/-- `Pattern`, src/engine/transformation/matching.h:11-16: the addresses of the tree and of the
constraints. -/
structure MemPattern where
  tree : Nat
  constraints : Nat → List Nat

/-- `RewriteRule`, src/engine/transformation/rewrite_rule.h:7-11, with all of its addresses. -/
structure LoadedRule where
  pattern : MemPattern
  after : Nat

/-- `parse_easy`, src/engine/parsing/parser.c:455-468; `none` is NULL. -/
def parseEasyAt (M : Malloc V) (c : Ctx) (strtod : Str → Option V) (s : Str) (m : Mem V) :
    Out (Option Nat × Mem V) := do
  match ← parseHeap M true c.env strtod (tokenize c.keywords s) m with
  | (.ok p, m') => pure (p, m')
  | (.err _ _, m') => pure (none, m')
  | (.okUninit, _) => .ub

/-! ## matching.c -/

/-- Trigger index of a constraint, src/engine/transformation/matching.c:397-404, from the `j`-th name
on. -/
def triggerAt (deep : Nat) (m : Mem V) (c : Nat) : List Str → (j maxId : Nat) → Out Nat
  | [], _, maxId => .ok maxId
  | v :: vs, j, maxId => do
    let k ← countNamed v deep m (some c)
    triggerAt deep m c vs (j + 1) (if k ≠ 0 then j else maxId)

/-- The loop over the constraints, matching.c:393-414; `none` is the error -2. -/
def addConstraintsAt (deep : Nat) (vars : List Str) : (cs : Nat → List Nat) → List Nat → Mem V →
    Out (Option (Nat → List Nat) × Mem V)
  | cs, [], m => .ok (some cs, m)
  | cs, c :: rest, m => do
    let m' ← copyIdsAt vars deep m (some c)
    let k ← triggerAt deep m' c vars 0 0
    if (cs k).length = maxConstraints then pure (none, m')
    else addConstraintsAt deep vars (fun j => if j = k then cs k ++ [c] else cs j) rest m'

/-- `get_pattern`, matching.c:375-416; `none` if an error code is returned. -/
def patternAt (deep : Nat) (m : Mem V) (tree : Nat) (constrs : List Nat) : Out (Option MemPattern × Mem V) := do
  let r ← listVarsAt maxMappedVars deep m (some tree) [] true
  if r.2.2 then do
    match ← addConstraintsAt deep r.2.1 (fun _ => []) constrs r.1 with
    | (some cs, m') => pure (some ⟨tree, cs⟩, m')
    | (none, m') => pure (none, m')
  else pure (none, r.1)

/-- `free_tree` for one tree after the other. -/
def freeTrees (deep : Nat) : List Nat → Mem V → Out (Mem V)
  | [], m => .ok m
  | p :: ps, m => do
    let m' ← freeTree deep m (some p)
    freeTrees deep ps m'

/-- The constraints in the order of lines 421-427 of matching.c. -/
def MemPattern.pointers (q : MemPattern) : List Nat := (List.range maxMappedVars).flatMap q.constraints

/-- `free_pattern`, matching.c:418-428. -/
def freePatternAt (deep : Nat) (m : Mem V) (q : MemPattern) : Out (Mem V) := do
  let m' ← freeTree deep m (some q.tree)
  freeTrees deep q.pointers m'

/-! ## rewrite_rule.c -/

/-- `free_rule`, src/engine/transformation/rewrite_rule.c:55-59. -/
def freeRuleAt (deep : Nat) (m : Mem V) (r : LoadedRule) : Out (Mem V) := do
  let m' ← freePatternAt deep m r.pattern
  freeTree deep m' (some r.after)

/-- `free_ruleset`, rewrite_rule.c:106-113. -/
def freeRulesetAt (deep : Nat) : List LoadedRule → Mem V → Out (Mem V)
  | [], m => .ok m
  | r :: rs, m => do
    let m' ← freeRuleAt deep m r
    freeRulesetAt deep rs m'

/-! ## rule_parsing.c -/

/-- The loop of `parse_constraints`, src/engine/transformation/rule_parsing.c:54-69: the return value and
what has been written to `out_constraints`, as far as `*num_constraints` counts.  `parse` is `parse_easy`. -/
def constraintsLoopAt (parse : Str → Mem V → Out (Option Nat × Mem V)) :
    (left : Nat) → Str → Mem V → Out (Bool × List Nat × Mem V)
  | 0, _, _ => .ub
  | left + 1, str, m => do
    let next := strstr str " ; ".toList
    let first := match next with
      | some k => str.take k
      | none => str
    match ← parse first m with
    | (none, m') => pure (false, [], m')
    | (some p, m') =>
      if left = 0 then pure (true, [p], m')
      else match next with
        | none => pure (true, [p], m')
        | some k => do
          let r ← constraintsLoopAt parse left (str.drop (k + 3)) m'
          pure (r.1, p :: r.2.1, r.2.2)

/-- `parse_constraints`, rule_parsing.c:37-76. -/
def constraintsAt (parse : Str → Mem V → Out (Option Nat × Mem V)) (buf : Nat) :
    Option Str → Mem V → Out (Bool × List Nat × Mem V)
  | none, m => .ok (true, [], m)
  | some s, m => constraintsLoopAt parse buf s m

/-- `parse_pattern`, rule_parsing.c:79-116; `none` is false.  Nothing is freed at the label `error`. -/
def parsePatternAt (parse : Str → Mem V → Out (Option Nat × Mem V)) (deep : Nat) (s : Str) (m : Mem V) :
    Out (Option MemPattern × Mem V) := do
  let w := strstr s " WHERE ".toList
  let buf := match w with
    | some k => s.set k '\x00'
    | none => s
  match ← constraintsAt parse maxConstraints (w.map fun k => cstr (buf.drop (k + 7))) m with
  | (false, _, m1) => pure (none, m1)
  | (true, cs, m1) => do
    match ← parse (cstr buf) m1 with
    | (none, m2) => pure (none, m2)
    | (some t, m2) => patternAt deep m2 t cs

/-- The label `error` of `parse_rule`, rule_parsing.c:177-182. -/
def ruleFailAt (deep : Nat) (left right : Option Nat) (cs : List Nat) (m : Mem V) :
    Out (Option LoadedRule × Mem V) := do
  let m1 ← freeTree deep m left
  let m2 ← freeTree deep m1 right
  let m3 ← freeTrees deep cs m2
  pure (none, m3)

/-- `parse_rule` from line 161 of rule_parsing.c on. -/
def finishParsedAt (deep : Nat) (left right : Nat) (cs : List Nat) (m : Mem V) :
    Out (Option LoadedRule × Mem V) := do
  match ← patternAt deep m left cs with
  | (none, m1) => ruleFailAt deep (some left) (some right) cs m1
  | (some pat, m1) => do
    let r ← getRuleAt deep m1 (some left) (some right)
    if r.1 then pure (some ⟨pat, right⟩, r.2)
    else ruleFailAt deep (some left) (some right) cs r.2

/-- `parse_rule` from line 149 of rule_parsing.c on: `left` and `right` are the two texts. -/
def sidesAt (parse : Str → Mem V → Out (Option Nat × Mem V)) (deep : Nat) (left right : Str) (cs : List Nat)
    (m : Mem V) : Out (Option LoadedRule × Mem V) := do
  match ← parse left m with
  | (none, m1) => ruleFailAt deep none none cs m1
  | (some l, m1) => do
    match ← parse right m1 with
    | (none, m2) => ruleFailAt deep (some l) none cs m2
    | (some r, m2) => finishParsedAt deep l r cs m2

/-- `parse_rule`, rule_parsing.c:118-183; `none` is false. -/
def parseRuleAt (parse : Str → Mem V → Out (Option Nat × Mem V)) (deep : Nat) (s : Str) (m : Mem V) :
    Out (Option LoadedRule × Mem V) := do
  let w := strstr s " WHERE ".toList
  match strstr s "->".toList with
  | none => ruleFailAt deep none none [] m
  | some a =>
    let buf := s.set a '\x00'
    let buf := match w with
      | some k => buf.set k '\x00'
      | none => buf
    match ← constraintsAt parse maxConstraints (w.map fun k => cstr (buf.drop (k + 7))) m with
    | (false, cs, m1) => ruleFailAt deep none none cs m1
    | (true, cs, m1) => sidesAt parse deep (cstr buf) (cstr (buf.drop (a + 2))) cs m1

/-- The loop of `parse_rulesets_from_file`, rule_parsing.c:195-231, as `rulesetsLoop`. -/
def rulesetsLoopAt (parse : Str → Mem V → Out (Option Nat × Mem V)) (deep bufferSize : Nat) :
    List Str → Int → (Nat → List LoadedRule) → Mem V → Out (Int × (Nat → List LoadedRule) × Mem V)
  | [], curr, out, m => .ok (curr + 1, out, m)
  | raw :: rest, curr, out, m => do
    let line ← Out.of (prepareLine raw)
    if beginsWith "RULESET".toList line then rulesetsLoopAt parse deep bufferSize rest (curr + 1) out m
    else if curr = bufferSize then pure (curr - 1 + 1, out, m)
    else if line.isEmpty then rulesetsLoopAt parse deep bufferSize rest curr out m
    else if curr = -1 then rulesetsLoopAt parse deep bufferSize rest curr out m
    else if curr > bufferSize then .ub
    else do
      match ← parseRuleAt parse deep line m with
      | (none, m') => pure (-1, out, m')
      | (some r, m') =>
        rulesetsLoopAt parse deep bufferSize rest curr
          (fun k => if k = curr.toNat then out k ++ [r] else out k) m'

/-- `parse_rulesets_from_file`, rule_parsing.c:185-239. -/
def rulesetsAt (parse : Str → Mem V → Out (Option Nat × Mem V)) (deep bufferSize : Nat) (text : Str)
    (m : Mem V) : Out (Int × (Nat → List LoadedRule) × Mem V) :=
  rulesetsLoopAt parse deep bufferSize (getlines text) (-1) (fun _ => []) m

/-! ## simplification.c -/

/-- The variables of src/client/simplification/simplification.c:33-38.  `none` is a pattern whose tree is
NULL and which has no constraints. -/
structure LoadedSimp where
  initialized : Bool
  rulesets : Nat → List LoadedRule
  derivBefore : Option MemPattern
  derivAfter : Option Nat
  malformedDeriv : Option MemPattern

/-- The same at the beginning of the program. -/
def LoadedSimp.start : LoadedSimp := ⟨false, fun _ => [], none, none, none⟩

/-- `free_pattern` if there is a pattern, otherwise `free_tree(NULL)`. -/
def freeMaybeAt (deep : Nat) (m : Mem V) : Option MemPattern → Out (Mem V)
  | none => .ok m
  | some q => freePatternAt deep m q

/-- `free_ruleset` for one ruleset after the other. -/
def freeRulesetsAt (deep : Nat) (rulesets : Nat → List LoadedRule) : List Nat → Mem V → Out (Mem V)
  | [], m => .ok m
  | k :: ks, m => do
    let m' ← freeRulesetAt deep (rulesets k) m
    freeRulesetsAt deep rulesets ks m'

/-- `free_tree(deriv_after)`, simplification.c:114. -/
def freeAfterAt (deep : Nat) (m : Mem V) : Option Nat → Out (Mem V)
  | none => .ok m
  | some p => freeTree deep m (some p)

/-- `unload_simplification`, simplification.c:110-121.  The pointers keep their values. -/
def unloadAt (deep : Nat) (s : LoadedSimp) (m : Mem V) : Out (LoadedSimp × Mem V) :=
  if s.initialized then do
    let m1 ← freeMaybeAt deep m s.derivBefore
    let m2 ← freeAfterAt deep m1 s.derivAfter
    let m3 ← freeMaybeAt deep m2 s.malformedDeriv
    let m4 ← freeRulesetsAt deep s.rulesets (List.range numRulesets) m3
    pure ({ s with initialized := false }, m4)
  else pure (s, m)

/-- `get_pattern` for `deriv_before`, simplification.c:96; without a tree its tree is NULL.  An error code is
ignored: the pattern has its tree nevertheless. -/
def beforeAt (deep : Nat) (m : Mem V) : Option Nat → Out (Option MemPattern × Mem V)
  | none => .ok (none, m)
  | some p => do
    let r ← patternAt deep m p []
    pure (some ⟨p, fun _ => []⟩, r.2)

/-- `init_simplification` from line 96 of simplification.c on.  If `parse_pattern` fails,
`malformed_deriv` keeps its value. -/
def initDerivsAt (gparse parse : Str → Mem V → Out (Option Nat × Mem V)) (deep : Nat)
    (rs : Nat → List LoadedRule) (s : LoadedSimp) (m : Mem V) : Out (Int × LoadedSimp × Mem V) := do
  let b ← gparse "x'".toList m
  let before ← beforeAt deep b.2 b.1
  let after ← gparse "deriv(x, z)".toList before.2
  let malformed ← parsePatternAt parse deep "deriv(x, y) WHERE type(y) != VAR".toList after.2
  pure (((List.range numRulesets).map fun k => (rs k).length).sum,
    ⟨true, rs, before.1, after.1, malformed.1 <|> s.malformedDeriv⟩, malformed.2)

/-- `init_simplification`, simplification.c:74-108. -/
def initAt (gparse parse : Str → Mem V → Out (Option Nat × Mem V)) (deep : Nat) (file : Option Str)
    (s : LoadedSimp) (m : Mem V) : Out (Int × LoadedSimp × Mem V) := do
  match file with
  | none => pure (-1, s, m)
  | some text => do
    let r ← rulesetsAt parse deep numRulesets text m
    if r.1 ≠ numRulesets then pure (-2, { s with rulesets := r.2.1 }, r.2.2)
    else initDerivsAt gparse parse deep r.2.1 s r.2.2

/-- `cmd_load_exec`, src/client/commands/cmd_load.c:25-44, the command `load simplification`. -/
def loadAt (gparse parse : Str → Mem V → Out (Option Nat × Mem V)) (deep : Nat) (file : Option Str)
    (s : LoadedSimp) (m : Mem V) : Out (LoadedSimp × Mem V) := do
  let u ← unloadAt deep s m
  let r ← initAt gparse parse deep file u.1 u.2
  pure r.2

/-! ## Reading the rules -/

/-- The trees at several addresses. -/
def readAll (deep : Nat) (m : Mem V) : List Nat → Out (List (Tree V))
  | [] => .ok []
  | p :: ps => do
    let t ← readTree deep m (some p)
    let ts ← readAll deep m ps
    pure (t :: ts)

/-- The constraints for some ids. -/
def readConstraints (deep : Nat) (m : Mem V) (cs : Nat → List Nat) : List Nat → Out (Nat → List (Tree V))
  | [] => .ok fun _ => []
  | k :: ks => do
    let ts ← readAll deep m (cs k)
    let f ← readConstraints deep m cs ks
    pure fun j => if j = k then ts else f j

/-- A pattern as `find_matching` reads it. -/
def readPattern (deep : Nat) (m : Mem V) (q : MemPattern) : Out (Pattern V) := do
  let t ← readTree deep m (some q.tree)
  let cs ← readConstraints deep m q.constraints (List.range maxMappedVars)
  pure ⟨t, cs⟩

/-- The same if there is one. -/
def readMaybe (deep : Nat) (m : Mem V) : Option MemPattern → Out (Option (Pattern V))
  | none => .ok none
  | some q => do
    let p ← readPattern deep m q
    pure (some p)

/-- A ruleset as `apply_ruleset` reads it. -/
def readRules (deep : Nat) (m : Mem V) : List LoadedRule → Out (List (MemRule V))
  | [] => .ok []
  | r :: rs => do
    let p ← readPattern deep m r.pattern
    let l ← readRules deep m rs
    pure (⟨p, r.after⟩ :: l)

/-- Some of the rulesets. -/
def readRulesets (deep : Nat) (m : Mem V) (rulesets : Nat → List LoadedRule) : List Nat →
    Out (Nat → List (MemRule V))
  | [] => .ok fun _ => []
  | k :: ks => do
    let l ← readRules deep m (rulesets k)
    let f ← readRulesets deep m rulesets ks
    pure fun j => if j = k then l else f j

/-- What `simplify` (simplification.c:200-218) reads. -/
def readSimp (deep : Nat) (m : Mem V) (s : LoadedSimp) : Out (MemSimp V) :=
  if s.initialized then do
    let rs ← readRulesets deep m s.rulesets (List.range numRulesets)
    let b ← readMaybe deep m s.derivBefore
    let f ← readMaybe deep m s.malformedDeriv
    pure ⟨true, rs, b, s.derivAfter, f⟩
  else pure ⟨false, fun _ => [], none, none, none⟩

/-! ## The program -/

/-- The variables of the program that lead to nodes. -/
structure MemProgram (V : Type) where
  session : MemSession V
  simp : LoadedSimp

/-- Inputs of four commands. -/
inductive ProgramInput where
  | session (input : MemInput)
  | load (file : Option Str)

/-- One input; `prop` is `g_propositional_ctx`. -/
def Machine.programInputAt (K : Machine V ε) (M : Malloc V) (F : Finder V) (deep : Nat) (prop : Ctx)
    (strtod : Str → Option V) (s : MemProgram V) : ProgramInput → Out (MemProgram V)
  | .session i => do
    let ms ← readSimp deep s.session.mem s.simp
    let r ← K.inputAt M F deep strtod ms s.session i
    pure { s with session := r }
  | .load file => do
    let r ← loadAt (parseEasyAt M s.session.ctx strtod) (parseEasyAt M prop strtod) deep file s.simp s.session.mem
    pure ⟨{ s.session with mem := r.2 }, r.1⟩

/-- One input after the other. -/
def programAt (M : Malloc V) (F : Finder V) (deep : Nat) (prop : Ctx) (strtod : Str → Option V) :
    MemProgram V → List (Machine V ε × ProgramInput) → Out (MemProgram V)
  | s, [] => .ok s
  | s, (K, i) :: rest => do
    let s' ← K.programInputAt M F deep prop strtod s i
    programAt M F deep prop strtod s' rest

/-- `unload_commands`, src/client/commands/commands.c:56-63, as far as nodes are concerned:
`unload_simplification` and `clear_composite_functions` (called by `unload_arith_ctx`,
src/client/core/arith_context.c:97-102). -/
def endAt (deep : Nat) (s : MemProgram V) : Out (Mem V) := do
  let u ← unloadAt deep s.simp s.session.mem
  let r ← clearFunsAt deep s.session.ctx s.session.funs u.2
  pure r.2

end Verif
