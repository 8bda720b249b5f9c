import Verif.Model.Parser

/-!
# Where the client shows an error (src/client/core/arith_context.c)
-/

namespace Verif

/-- `error_pos` of `show_error_at_token`, src/client/core/arith_context.c:215-221
(`vec_get` on an index below `error_token`; reading past the tokens is `ub`).
`int` arithmetic without overflow. -/
def errorPos (promptLen : Nat) : List Str → Nat → Res Nat
  | _, 0 => .ok promptLen
  | [], _ + 1 => .ub
  | t :: ts, k + 1 => errorPos (promptLen + t.length) ts k

/-- `error_length` of `show_error_at_token`, src/client/core/arith_context.c:222-223. -/
def errorLength (tokens : List Str) (k : Nat) : Nat :=
  match tokens[k]? with
  | some t => t.length
  | none => 1

/-- `parse_input`, src/engine/parsing/parser.c:448-453: tokens and result. -/
def parseInput {V : Type} (c : Ctx) (strtod : Str → Option V) (inp : Str) : List Str × PRes V :=
  let toks := tokenize c.keywords inp
  (toks, parseTokens c.env strtod toks)

end Verif
