import Verif.Model.ErrorPos
import Verif.Model.Simplification

/-!
# Text of rules and rule files
(src/engine/transformation/rule_parsing.c, src/client/simplification/simplification.c,
src/client/commands/cmd_load.c)
-/

namespace Verif
variable {V : Type}

/-- `strstr`: offset of the first occurrence of `needle`; the string starts at
offset `k`. -/
def strstrFrom (needle : Str) : Str → Nat → Option Nat
  | [], k => if needle.isEmpty then some k else none
  | c :: s, k => if needle.isPrefixOf (c :: s) then some k else strstrFrom needle s (k + 1)

/-- `strstr(s, needle) - s` -/
def strstr (s needle : Str) : Option Nat := strstrFrom needle s 0

/-- What is read as a C string from a buffer in which NUL characters may stand. -/
def cstr (buf : Str) : Str := buf.takeWhile (· != '\x00')

/-- `parse_easy`, src/engine/parsing/parser.c:455-468; `none` is NULL. -/
def parseEasy (c : Ctx) (strtod : Str → Option V) (s : Str) : Res (Option (Tree V)) :=
  match (parseInput c strtod s).2 with
  | .ok t => .ok (some t)
  | .err _ _ => .ok none
  | .okUninit => .ub
  | .ub => .ub

/-- The loop of `parse_constraints`, src/engine/transformation/rule_parsing.c:54-69;
`left` is the room in the buffer (writing without room is `ub`).  `parse` is
`parse_easy`; `none` is the error exit. -/
def parseConstraintsLoop (parse : Str → Res (Option (Tree V))) :
    (left : Nat) → Str → Res (Option (List (Tree V)))
  | 0, _ => .ub
  | left + 1, str => do
    let next := strstr str " ; ".toList
    let first := match next with
      | some k => str.take k
      | none => str
    match ← parse first with
    | none => pure none
    | some t =>
      if left = 0 then pure (some [t])
      else match next with
        | none => pure (some [t])
        | some k => do
          match ← parseConstraintsLoop parse left (str.drop (k + 3)) with
          | none => pure none
          | some ts => pure (some (t :: ts))

/-- `parse_constraints`, rule_parsing.c:37-76; the string may be NULL. -/
def parseConstraints (parse : Str → Res (Option (Tree V))) (buf : Nat) :
    Option Str → Res (Option (List (Tree V)))
  | none => .ok (some [])
  | some s => parseConstraintsLoop parse buf s

/-- `parse_pattern`, rule_parsing.c:79-116. -/
def parsePattern (parse : Str → Res (Option (Tree V))) (s : Str) : Res (Option (Pattern V)) := do
  let w := strstr s " WHERE ".toList
  let buf := match w with
    | some k => s.set k '\x00'
    | none => s
  match ← parseConstraints parse maxConstraints (w.map fun k => cstr (buf.drop (k + 7))) with
  | none => pure none
  | some cs =>
    match ← parse (cstr buf) with
    | none => pure none
    | some t =>
      match getPattern t cs with
      | .error _ => pure none
      | .ok pat => pure (some pat)

/-- `parse_rule`, rule_parsing.c:118-183; `none` is false. -/
def parseRule (parse : Str → Res (Option (Tree V))) (s : Str) : Res (Option (RewriteRule V)) := do
  let w := strstr s " WHERE ".toList
  match strstr s "->".toList with
  | none => pure none
  | some a =>
    let buf := s.set a '\x00'
    let buf := match w with
      | some k => buf.set k '\x00'
      | none => buf
    match ← parseConstraints parse maxConstraints (w.map fun k => cstr (buf.drop (k + 7))) with
    | none => pure none
    | some cs =>
      match ← parse (cstr buf) with
      | none => pure none
      | some l =>
        match ← parse (cstr (buf.drop (a + 2))) with
        | none => pure none
        | some r =>
          match getPattern l cs with
          | .error _ => pure none
          | .ok pat => pure (getRule pat r)

/-- What successive calls of `getline` return: the text cut behind every newline. -/
def getlines : Str → List Str
  | [] => []
  | c :: s =>
    if c = '\n' then [c] :: getlines s
    else match getlines s with
      | [] => [[c]]
      | l :: ls => (c :: l) :: ls

/-- Preparation of a line, rule_parsing.c:200-203.  The last character is overwritten;
if the line starts with a NUL character this writes in front of the buffer. -/
def prepareLine (raw : Str) : Res Str :=
  let s := cstr raw
  if s.isEmpty then .ub
  else
    let l := s.dropLast
    let l := match strstr l "#".toList with
      | some k => l.take k
      | none => l
    .ok (l.dropWhile (· == ' '))

/-- The loop of `parse_rulesets_from_file`, rule_parsing.c:195-231, over the lines of
the file: `curr_ruleset`, and the contents of the vectors.  Result: return value
and vectors; if a line is rejected the vectors are not used any more. -/
def rulesetsLoop (parse : Str → Res (Option (Tree V))) (bufferSize : Nat) :
    List Str → Int → (Nat → List (RewriteRule V)) → Res (Int × (Nat → List (RewriteRule V)))
  | [], curr, out => .ok (curr + 1, out)
  | raw :: rest, curr, out => do
    let line ← prepareLine raw
    if beginsWith "RULESET".toList line then rulesetsLoop parse bufferSize rest (curr + 1) out
    else if curr = bufferSize then pure (curr - 1 + 1, out)
    else if line.isEmpty then rulesetsLoop parse bufferSize rest curr out
    else if curr = -1 then rulesetsLoop parse bufferSize rest curr out
    else if curr > bufferSize then .ub
    else do
      match ← parseRule parse line with
      | none => pure (-1, out)
      | some r =>
        rulesetsLoop parse bufferSize rest curr
          (fun k => if k = curr.toNat then out k ++ [r] else out k)

/-- `parse_rulesets_from_file`, rule_parsing.c:185-239, on the text of the file. -/
def parseRulesets (parse : Str → Res (Option (Tree V))) (bufferSize : Nat) (text : Str) :
    Res (Int × (Nat → List (RewriteRule V))) :=
  rulesetsLoop parse bufferSize (getlines text) (-1) (fun _ => [])

/-- `NUM_RULESETS`, src/client/simplification/simplification.c:21 -/
def numRulesets : Nat := 7

/-- The global variables of simplification.c:33-38. -/
structure Simp (V : Type) where
  initialized : Bool
  rulesets : Nat → List (RewriteRule V)
  derivBefore : Option (Pattern V)
  derivAfter : Option (Tree V)
  malformedDeriv : Option (Pattern V)

/-- `unload_simplification`, simplification.c:110-121; what was freed is not there any
more. -/
def Simp.unload (s : Simp V) : Simp V :=
  if s.initialized then ⟨false, fun _ => [], none, none, none⟩ else s

/-- `init_simplification`, simplification.c:74-108: return value and new state.
`file` is the text of the file, `none` if it can not be opened.  `gparse` is
`parse_easy` with `g_ctx` (the user's functions are known there), `parse` the one
with `g_propositional_ctx`.  A failed `P("x'")` yields NULL, on which `get_pattern`
leaves `sufficient` false; nothing checks for it. -/
def initSimplification (gparse parse : Str → Res (Option (Tree V))) (file : Option Str) (s : Simp V) :
    Res (Int × Simp V) := do
  match file with
  | none => pure (-1, s)
  | some text =>
    let (n, rs) ← parseRulesets parse numRulesets text
    if n ≠ numRulesets then pure (-2, { s with rulesets := rs })
    else do
      let before ← gparse "x'".toList
      let after ← gparse "deriv(x, z)".toList
      let malformed ← parsePattern parse "deriv(x, y) WHERE type(y) != VAR".toList
      let pat := before.bind fun t => (getPattern t []).toOption
      pure (((List.range numRulesets).map fun k => (rs k).length).sum,
        ⟨true, rs, pat, after, malformed⟩)

/-- `cmd_load_exec`, src/client/commands/cmd_load.c:25-44, the command
`load simplification`: return value and new state. -/
def loadSimplification (gparse parse : Str → Res (Option (Tree V))) (file : Option Str) (s : Simp V) :
    Res (Bool × Simp V) := do
  let (count, s') ← initSimplification gparse parse file s.unload
  if count = -1 then pure (false, s') else pure (true, s')

end Verif
