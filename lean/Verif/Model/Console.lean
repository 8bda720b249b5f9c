import Verif.Model.ErrorPos
import Verif.Model.StringUtil
import Verif.Model.Session
import Verif.Model.Simplify
import Verif.Model.Evaluation

/-!
# Error messages (src/util/console_util.c, src/client/core/arith_context.c)

What is written to stderr is a string.  The `int` arithmetic is done without overflow.
-/

namespace Verif
variable {V E ρ : Type}

/-- `report_error_at`, src/util/console_util.c:165-204; `msg` is the text the format makes. -/
def reportErrorAt (interactive : Bool) (pos length : Nat) (msg : Str) : Str :=
  (if interactive then
    if 0 < (pos : Int) - msg.length then
      List.replicate (pos - msg.length - 1) ' ' ++ msg ++ [' '] ++ List.replicate (length - 1) '~' ++ ['^']
    else
      List.replicate pos ' ' ++ ['^'] ++ List.replicate (length - 1) '~' ++ [' '] ++ msg
  else msg) ++ ['\n']

/-- `perr_to_string`, src/client/core/arith_context.c:156-183 -/
def perrToString : PErr → Str
  | .expectedInfix => "Expected infix or postfix operator".toList
  | .unexpectedInfix => "Unexpected infix or postfix operator".toList
  | .excessOpeningParen => "Missing closing parenthesis".toList
  | .unexpectedClosingParen => "Unexpected closing parenthesis".toList
  | .unexpectedDelimiter => "Unexpected delimiter".toList
  | .functionWrongArity => "Wrong number of operands of function".toList
  | .unexpectedEndOfExpr => "Unexpected end of expression".toList
  | .expectedParamList => "Expected an opening parenthesis".toList
  | .unexpectedCharacter => "Unexpected character".toList

/-- `show_error_at_token`, arith_context.c:215-225 -/
def showErrorAtToken (interactive : Bool) (tokens : List Str) (k : Nat) (message : Str) (promptLen : Nat) : Res Str := do
  let pos ← errorPos promptLen tokens k
  pure (reportErrorAt interactive pos (errorLength tokens k) ("Error: ".toList ++ message))

/-- What `arith_parse_raw` reports, arith_context.c:242-253: nothing if there is no error. -/
def parseReport (interactive : Bool) (c : Ctx) (strtod : Str → Option V) (inp : Str) (promptLen : Nat) : Res Str :=
  match parseInput c strtod inp with
  | (tokens, .err e k) => showErrorAtToken interactive tokens k (perrToString e) promptLen
  | (_, .ok _) => .ok []
  | (_, .okUninit) => .ub
  | (_, .ub) => .ub

/-- `listenererr_to_str`, arith_context.c:185-210 -/
def listenererrToStr : ListenerErr → Str
  | .variableEncountered => "Expression not constant".toList
  | .historyNotSet => "This part of the history is not set yet".toList
  | .impossibleDeriv => "Expression not continuously differentiable".toList
  | .malformedDerivA => "More than one variable in expr'".toList
  | .malformedDerivB => "Second operand of function 'deriv' must be variable".toList
  | .unknownOp => "No evaluation of operator possible".toList
  | .divisionByZero => "Division by zero".toList
  | .complexSolution => "Complex solution".toList

/-- The message for an error of `simplify` (src/client/simplification/simplification.c:144,170,193); an evaluation that
does not return reports nothing. -/
def simpMessage : SimpErr EvalErr → Str
  | .listener (.code e) => listenererrToStr e
  | .listener .hang => []
  | .listener .ub => []
  | .malformedA => listenererrToStr .malformedDerivA
  | .malformedB => listenererrToStr .malformedDerivB
  | .impossible => listenererrToStr .impossibleDeriv

/-- What `arith_simplify` reports, arith_context.c:260-271: nothing if there is no error.  An error comes with
the index of the token of the node it is found at. -/
def simplifyReport (interactive : Bool) (K : Client V (E × Nat) ρ) (message : E → Str) (funs : List (RewriteRule V))
    (hist : List V) (w : ρ) (tokens : List Str) (t : Tree V) (promptLen : Nat) : Out Str := do
  let (t', _) ← Out.ofFuel (applyRuleset K.eqV (fun _ => true) funs sizeMax K.fuel t)
  let (_, r) ← K.simp w hist t'
  match r with
  | .error (e, i) => Out.of (showErrorAtToken interactive tokens i (message e) promptLen)
  | .ok _ => pure []

/-- What `arith_parse` reports, arith_context.c:227-237. -/
def arithReport (interactive : Bool) (K : Client V (E × Nat) ρ) (message : E → Str) (s : Session V ρ) (inp : Str)
    (promptLen : Nat) : Out Str :=
  match parseInput s.ctx K.strtod inp with
  | (tokens, .ok t) => simplifyReport interactive K message s.funs s.hist s.world tokens t promptLen
  | (_, _) => Out.of (parseReport interactive s.ctx K.strtod inp promptLen)

end Verif
