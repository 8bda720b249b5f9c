import Verif.Spec.Table
import Verif.Spec.LayoutRows

/-!
# What the table command should print
-/

namespace Verif.TableSpec
variable {V : Type}

/-- A text between blanks. -/
def spaced (s : Str) : Str := ' ' :: s ++ [' ']

/-- A value, or the word that stands for an error. -/
def valueText (fixed : V → Str) : Option V → Str
  | some v => fixed v
  | none => "Error".toList

/-- The cells of the table: on a terminal there are a header with the name of the variable (if there is one) and the
expression, and numbers in front of the rows. -/
def tableCells (interactive : Bool) (fixed : V → Str) (var : Option Str) (title : Str) (rows : List (TableRow V)) :
    List (List (Option Str)) :=
  if interactive then
    [none, var, some title] :: rows.zipIdx.map fun (r, i) =>
      [some (spaced (toString (i + 1)).toList), some (spaced (fixed r.pos)), some (spaced (valueText fixed r.value))]
  else rows.map fun r => [some (spaced (fixed r.pos)), some (spaced (valueText fixed r.value))]

/-- The line below the table. -/
def foldLine (general : V → Str) : Option V → Str
  | none => []
  | some v => "Fold result: ".toList ++ general v ++ ['\n']

end Verif.TableSpec
