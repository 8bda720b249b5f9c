import Verif.Model.Basic

/-!
# What a rule file says

Stated on the text alone.
-/

namespace Verif

/-- `s` is `a ++ sep ++ b`, cut at the first occurrence of `sep`. -/
def FirstCut (sep s a b : Str) : Prop :=
  s = a ++ sep ++ b ∧ ∀ a' b', s = a' ++ sep ++ b' → a.length ≤ a'.length

/-- `sep` does not occur in `s`. -/
def Absent (sep s : Str) : Prop := ∀ a b, s ≠ a ++ sep ++ b

/-- `s` consists of these parts, separated by `sep`. -/
inductive Parts (sep : Str) : Str → List Str → Prop where
  | one {s} : Absent sep s → Parts sep s [s]
  | more {s a b l} : FirstCut sep s a b → Parts sep b l → Parts sep s (a :: l)

/-- `left -> right`, or `left -> right WHERE c1 ; c2 ; ...` -/
inductive RuleText (s left right : Str) : List Str → Prop where
  | plain : FirstCut "->".toList s left right → Absent " WHERE ".toList s →
      RuleText s left right []
  | where {body conds cs} : FirstCut " WHERE ".toList s body conds →
      FirstCut "->".toList body left right → Parts " ; ".toList conds cs →
      RuleText s left right cs

/-- `body` is what counts of a line: without leading spaces and comment. -/
def Content (line body : Str) : Prop :=
  ∃ k comment, line = List.replicate k ' ' ++ body ++ comment ∧ (comment = [] ∨ comment.head? = some '#') ∧
    '#' ∉ body ∧ body.head? ≠ some ' '

/-- A line that starts a ruleset. -/
def Header (body : Str) : Prop := "RULESET".toList <+: body

/-- The text consists of these lines, each ended by a newline. -/
def TextOf (lines : List Str) (text : Str) : Prop :=
  text = (lines.map fun l => l ++ ['\n']).flatten ∧ ∀ l ∈ lines, '\n' ∉ l ∧ '\x00' ∉ l

/-- The lines that count are the headers in `secs`, each followed by its rules. -/
def RuleFile (lines : List Str) (secs : List (Str × List Str)) : Prop :=
  (∃ ps : List (Str × Str), lines = ps.map (·.1) ∧ (∀ p ∈ ps, Content p.1 p.2) ∧
    (ps.map (·.2)).filter (· ≠ []) = (secs.map fun s => s.1 :: s.2).flatten) ∧
  ∀ s ∈ secs, Header s.1 ∧ ∀ r ∈ s.2, ¬ Header r

end Verif
