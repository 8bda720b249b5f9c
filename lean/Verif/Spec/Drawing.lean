import Verif.Model.Drawing
import Verif.Spec.Layout

/-!
# What coloured text and drawings of trees should look like
-/

namespace Verif.DrawingSpec
variable {V : Type}

/-- What is visible of a text on a terminal: everything but the escape sequences, each of which goes from ESC to the
next `m`. -/
def seenFrom : (inEscape : Bool) → Str → Str
  | _, [] => []
  | true, c :: s => seenFrom (c != 'm') s
  | false, c :: s => if c = Char.ofNat 27 then seenFrom true s else c :: seenFrom false s

/-- What is visible of a text. -/
def seen (s : Str) : Str := seenFrom false s

/-- A property of the texts of constants and the names of all variables and operators of a tree. -/
inductive Texts (fmt : V → Str) (P : Str → Prop) : Tree V → Prop
  | const {v tok} : P (fmt v) → Texts fmt P (.const v tok)
  | var {n id tok} : P n → Texts fmt P (.var n id tok)
  | op {o cs tok} : P o.name → (∀ c ∈ cs, Texts fmt P c) → Texts fmt P (.op o cs tok)

/-- The escape character does not occur. -/
def NoEscape (s : Str) : Prop := Char.ofNat 27 ∉ s

/-- Printable ASCII text with at least one character. -/
def Plain (s : Str) : Prop := s ≠ [] ∧ ∀ c ∈ s, 32 ≤ c.toNat ∧ c.toNat < 127

mutual
/-- Number of levels of a tree. -/
def levels : Tree V → Nat
  | .const .. => 1
  | .var .. => 1
  | .op _ cs _ => levelsList cs + 1
/-- Number of levels of the highest of several trees. -/
def levelsList : List (Tree V) → Nat
  | [] => 0
  | c :: cs => max (levels c) (levelsList cs)
end

/-- The bytes of a text. -/
def bytes (s : String) : Str := s.toUTF8.data.toList.map fun b => Char.ofNat b.toNat

/-- A text in front of the first line, and another one in front of the others. -/
def hang (first rest : Str) : List Str → List Str
  | [] => []
  | l :: ls => (first ++ l) :: ls.map (rest ++ ·)

mutual
/-- Drawing of a tree: the node, and below the drawings of the children, each of which hangs on a line from the node
that ends at the last child. -/
def picture (fmt : V → Str) : Tree V → List Str
  | .const v _ => [bytes "\x1b[1;33m" ++ fmt v ++ bytes "\x1b[0m"]
  | .var n _ _ => [bytes "\x1b[1;36m" ++ n ++ bytes "\x1b[0m"]
  | .op o cs _ => (bytes "\x1b[47m\x1b[22;30m" ++ o.name ++ bytes "\x1b[0m") :: pictures fmt cs
/-- Drawings of children. -/
def pictures (fmt : V → Str) : List (Tree V) → List Str
  | [] => []
  | [c] => hang (bytes "└── ") (bytes "    ") (picture fmt c)
  | c :: cs => hang (bytes "├── ") (bytes "│   ") (picture fmt c) ++ pictures fmt cs
end

end Verif.DrawingSpec
