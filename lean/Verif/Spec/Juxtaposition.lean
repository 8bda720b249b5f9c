import Verif.Model.Context
import Verif.Model.Str

namespace Verif

/-- A token that continues an expression after an operand: closing parenthesis,
delimiter, infix or postfix operator. -/
def continues (E : Env) (tok : Str) : Bool :=
  isClosingParen tok || isDelimiter tok || (E.lookup tok .infix).isSome ||
    (E.lookup tok .postfix).isSome

/-- An operand is complete after the token, given that (`done = true`) or not
one was complete before it. -/
def operandDone (E : Env) (done : Bool) (tok : Str) : Bool :=
  if isOpeningParen tok then false
  else if isClosingParen tok then true
  else if isDelimiter tok then false
  else if done then (E.lookup tok .infix).isNone
  else
    match E.lookup tok .function with
    | some f => f.arity == .fixed 0
    | none => (E.lookup tok .prefix).isNone

/-- Writes the operator name `g` between juxtaposed operands; the new tokens get
the number of the token they precede. -/
def writeGlue (E : Env) (g : Str) : Bool → List (Nat × Str) → List (Nat × Str)
  | _, [] => []
  | done, (i, tok) :: rest =>
    if headIs isSpace tok then (i, tok) :: writeGlue E g done rest
    else if done && !continues E tok then
      (i, g) :: (i, tok) :: writeGlue E g (operandDone E false tok) rest
    else (i, tok) :: writeGlue E g (operandDone E done tok) rest

end Verif
