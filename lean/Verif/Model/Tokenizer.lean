import Verif.Model.Trie
import Verif.Model.Str

/-!
# Tokenizer (src/engine/parsing/tokenizer.c)
-/

namespace Verif

/-- `TokState`, src/engine/parsing/tokenizer.c:13-19 -/
inductive TokState where
  | new
  | letter
  | digit
  | other
deriving DecidableEq, Repr

/-- Classification of a character, src/engine/parsing/tokenizer.c:48-60 -/
def classify (c : Char) : TokState :=
  if isDigit c then .digit else if isLetter c then .letter else .other

/-- `push_token`, src/engine/parsing/tokenizer.c:21-31: tokens are collected in
order; an empty token is not pushed. -/
def pushToken (toks : List Str) (tok : Str) : List Str :=
  if tok.length == 0 then toks else toks ++ [tok]

/-- The loop of `tokenize`, src/engine/parsing/tokenizer.c:46-86, on the input
`inp` at position `i` with `start` = `next_token_start`.  `input + k` is
`inp.drop k`; copying `len` characters from there is `take`.  Every iteration
advances `i`, so `fuel` = number of characters left never runs out
(`tokLoop_canon`). -/
def tokLoop (kw : Trie Unit) (inp : Str) :
    (fuel i start : Nat) → TokState → List Str → List Str
  | 0, _, start, _, toks => pushToken toks ((inp.drop start).take (inp.length - start))
  | fuel + 1, i, start, st, toks =>
    match inp[i]? with
    | none => pushToken toks ((inp.drop start).take (inp.length - start))
    | some c =>
      let next := classify c
      let ended := st != .new && (next != st || next == .other)
      let toks1 := if ended then pushToken toks ((inp.drop start).take (i - start)) else toks
      let start1 := if ended then i else start
      let len := if next != .letter then (kw.longestPrefix (inp.drop i)).1 else 0
      if len > 0 then
        tokLoop kw inp fuel (i + len) (start1 + len) .new
          (pushToken toks1 ((inp.drop i).take len))
      else
        tokLoop kw inp fuel (i + 1) start1 next toks1

/-- `tokenize`, src/engine/parsing/tokenizer.c:40-87 (keyword trie not NULL). -/
def tokenize (kw : Trie Unit) (inp : Str) : List Str := tokLoop kw inp inp.length 0 0 .new []

end Verif
