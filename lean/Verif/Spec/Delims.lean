import Verif.Model.Str

namespace Verif

/-- Scan of a token list: no delimiter stands directly inside a parenthesis that
itself directly follows an opening parenthesis or a delimiter.  `bare`: the
previous token is an opening parenthesis or a delimiter; `stack`: for each open
parenthesis, innermost first, whether it was bare. -/
def delimsOk : (bare : Bool) → (stack : List Bool) → List Str → Bool
  | _, _, [] => true
  | bare, stack, t :: ts =>
    if headIs isSpace t then delimsOk bare stack ts
    else if isOpeningParen t then delimsOk true (bare :: stack) ts
    else if isClosingParen t then delimsOk false stack.tail ts
    else if isDelimiter t then stack.head? != some true && delimsOk true stack ts
    else delimsOk false stack ts

end Verif
