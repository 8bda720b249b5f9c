import Verif.Model.Basic

/-!
# String helpers (src/util/string_util.c)
-/

namespace Verif

/-- `is_space`, src/util/string_util.c:11-14 -/
def isSpace (c : Char) : Bool := c == ' '

/-- `is_digit`, src/util/string_util.c:16-19 -/
def isDigit (c : Char) : Bool := ('0' ≤ c && c ≤ '9') || c == '.'

/-- `is_letter`, src/util/string_util.c:21-28 -/
def isLetter (c : Char) : Bool :=
  ('A' ≤ c && c ≤ 'Z') || ('a' ≤ c && c ≤ 'z') || c == '_' || c == '[' || c == ']'

/-- `is_opening_parenthesis`, src/util/string_util.c:30-33 -/
def isOpeningParen (s : Str) : Bool := s == ['('] || s == ['{']

/-- `is_closing_parenthesis`, src/util/string_util.c:35-38 -/
def isClosingParen (s : Str) : Bool := s == [')'] || s == ['}']

/-- `is_delimiter`, src/util/string_util.c:40-43 -/
def isDelimiter (s : Str) : Bool := s == [',']

/-- First character satisfies `p`; an empty string has the NUL character in
front, which is neither space nor letter nor digit. -/
def headIs (p : Char → Bool) : Str → Bool
  | [] => false
  | c :: _ => p c

/-- `begins_with`, src/util/string_util.c:45-51 -/
def beginsWith (pre str : Str) : Bool :=
  if pre.length > str.length then false else str.take pre.length == pre

end Verif
