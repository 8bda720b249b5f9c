import Verif.Spec.RuleText
import Verif.Model.Vector

/-!
# Pieces, trimmed strings, lines
-/

namespace Verif.TextSpec

/-- `ps` are the pieces of `s` when it is cut at the first occurrence of each
delimiter in turn, as long as there is one. -/
inductive Cut : Str → List Str → List Str → Prop
  | done (s) : Cut s [] [s]
  | absent {s d ds} : Absent d s → Cut s (d :: ds) [s]
  | cut {s d ds a b ps} : FirstCut d s a b → Cut b ds ps → Cut s (d :: ds) (a :: ps)

/-- `t` is `s` without the blanks around it. -/
def Trimmed (s t : Str) : Prop :=
  ∃ a b, s = a ++ t ++ b ∧ (∀ c ∈ a, c = ' ') ∧ (∀ c ∈ b, c = ' ') ∧ t.head? ≠ some ' ' ∧ t.getLast? ≠ some ' '

/-- `ls` are the lines of a text: a newline separates two lines. -/
inductive Lines : Str → List Str → Prop
  | last {s} : '\n' ∉ s → Lines s [s]
  | more {a b ls} : '\n' ∉ a → Lines b ls → Lines (a ++ '\n' :: b) (a :: ls)

end Verif.TextSpec
