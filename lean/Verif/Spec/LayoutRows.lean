import Verif.Spec.Layout

/-!
# What a table of rows of texts looks like
-/

namespace Verif.LayoutSpec
open Layout

/-- The lines of a text. -/
def linesOf : Str → List Str
  | [] => [[]]
  | c :: s =>
    if c = '\n' then [] :: linesOf s
    else match linesOf s with
      | [] => [[c]]
      | l :: ls => (c :: l) :: ls

/-- The lines of a cell. -/
def cellLines : Option Str → List Str
  | none => []
  | some s => linesOf s

/-- The largest of some numbers. -/
def largest (ns : List Nat) : Nat := ns.foldr max 0

/-- The lines of the cell in column `k` of a row. -/
def linesAt (row : List (Option Str)) (k : Nat) : List Str := cellLines (row[k]?).join

/-- The width of a column: the widest line in it, as lines are measured. -/
def columnWidthBy (measure : Str → Nat) (rows : List (List (Option Str))) (k : Nat) : Nat :=
  largest (rows.map fun r => largest ((linesAt r k).map measure))

/-- The width of a column on the screen. -/
def columnWidth (rows : List (List (Option Str))) (k : Nat) : Nat := columnWidthBy columns rows k

/-- The height of a row: the most lines in a cell. -/
def rowHeight (row : List (Option Str)) : Nat := largest (row.map fun c => (cellLines c).length)

/-- A line that lacks `d` blanks. -/
def fill (a : HAlign) (d : Nat) (l : Str) : Str :=
  match a with
  | .left => l ++ List.replicate d ' '
  | .right => List.replicate d ' ' ++ l
  | .center => List.replicate (d / 2) ' ' ++ l ++ List.replicate (d - d / 2) ' '

/-- A line filled up with blanks to a width. -/
def pad (a : HAlign) (w : Nat) (l : Str) : Str := fill a (w - columns l) l

/-- The table: every line shows one line of every cell of a row, from top to bottom, each filled up to the width
of its column. -/
def shown (aligns : List HAlign) (rows : List (List (Option Str))) : List Str :=
  rows.flatMap fun row => (List.range (rowHeight row)).map fun i =>
    (List.range (largest (rows.map List.length))).flatMap fun k =>
      pad (aligns[k]?.getD .left) (columnWidth rows k) ((linesAt row k)[i]?.getD [])

/-- The same with an alignment for every row and column, and with lines that are measured in some way. -/
def shownWith (measure : Str → Nat) (align : Nat → Nat → HAlign) (rows : List (List (Option Str))) : List Str :=
  rows.zipIdx.flatMap fun (row, r) => (List.range (rowHeight row)).map fun i =>
    (List.range (largest (rows.map List.length))).flatMap fun k =>
      let l := (linesAt row k)[i]?.getD []
      fill (align r k) (columnWidthBy measure rows k - measure l) l

/-- The table on the screen with an alignment for every row and column. -/
def shownBy (align : Nat → Nat → HAlign) (rows : List (List (Option Str))) : List Str := shownWith columns align rows

/-! ## Tables with lines -/

/-- The line of a text that is seen `i` lines below the top of a cell of a height. -/
def visible (v : VAlign) (height : Nat) (ls : List Str) (i : Nat) : Str :=
  let gap := height - ls.length
  let above := match v with
    | .top => 0
    | .center => gap / 2
    | .bottom => gap
  if i < above then [] else ls[i - above]?.getD []

/-- Bytes of a character. -/
def bytes (c : Char) : Str := (String.utf8EncodeChar c).map fun b => Char.ofNat b.toNat

/-- The character of which lines go out upwards, to the right, downwards and to the left; single lines. -/
def singleChar : (up right down left : Bool) → Char
  | false, true, true, false => '┌'
  | false, true, true, true => '┬'
  | false, false, true, true => '┐'
  | true, true, true, false => '├'
  | true, true, true, true => '┼'
  | true, false, true, true => '┤'
  | true, true, false, false => '└'
  | true, true, false, true => '┴'
  | true, false, false, true => '┘'
  | false, true, false, true => '─'
  | true, false, true, false => '│'
  | _, _, _, _ => ' '

/-- The same for double lines. -/
def doubleChar : (up right down left : Bool) → Char
  | false, true, true, false => '╔'
  | false, true, true, true => '╦'
  | false, false, true, true => '╗'
  | true, true, true, false => '╠'
  | true, true, true, true => '╬'
  | true, false, true, true => '╣'
  | true, true, false, false => '╚'
  | true, true, false, true => '╩'
  | true, false, false, true => '╝'
  | false, true, false, true => '═'
  | true, false, true, false => '║'
  | _, _, _, _ => ' '

/-- Where four lines meet: the character with their directions, double if most of them are. -/
def junctionChar (up right down left : Border) : Char :=
  let on := fun b : Border => decide (b ≠ .none)
  if [up, right, down, left].count .single < [up, right, down, left].count .double then
    doubleChar (on up) (on right) (on down) (on left)
  else singleChar (on up) (on right) (on down) (on left)

/-- A horizontal or a vertical line. -/
def acrossChar (b : Border) : Char := junctionChar .none b .none b
def downChar (b : Border) : Char := junctionChar b .none b .none

/-- The line above a cell that was asked for itself; in a last column without width there is none. -/
def ownAbove (t : Table) (w : Nat → Nat) (r k : Nat) : Option Border :=
  if w (t.numCols - 1) = 0 ∧ k = t.numCols - 1 then some .none else (t.cell (r, k)).above

/-- The line to the left of a cell that was asked for itself; in a last row without height there is none. -/
def ownLeft (t : Table) (h : Nat → Nat) (r k : Nat) : Option Border :=
  if h (t.numRows - 1) = 0 ∧ r = t.numRows - 1 then some .none else (t.cell (r, k)).left

/-- The line above a cell: its own, else that of the row. -/
def lineAbove (t : Table) (w : Nat → Nat) (r k : Nat) : Border := (ownAbove t w r k).getD (t.rowBorder r)

/-- The line to the left of a cell: its own, else that of the column. -/
def lineLeft (t : Table) (h : Nat → Nat) (r k : Nat) : Border := (ownLeft t h r k).getD (t.colBorder k)

/-- Whether there is room for a line above a row. -/
def LineAbove (t : Table) (w : Nat → Nat) (r : Nat) : Prop :=
  t.rowBorder r ≠ .none ∨ ∃ k, k < maxCols ∧ (ownAbove t w r k).getD .none ≠ .none

/-- Whether there is room for a line to the left of a column. -/
def LineLeft (t : Table) (h : Nat → Nat) (k : Nat) : Prop :=
  t.colBorder k ≠ .none ∨ ∃ r, r < t.numRows ∧ (ownLeft t h r k).getD .none ≠ .none

open Classical in
/-- The line above a row. -/
noncomputable def borderRow (t : Table) (w h : Nat → Nat) (r : Nat) : Str :=
  (List.range t.numCols).flatMap fun k =>
    (if LineLeft t h k then
      bytes (junctionChar (if r = 0 then .none else lineLeft t h (r - 1) k) (lineAbove t w r k) (lineLeft t h r k)
        (if k = 0 then .none else lineAbove t w r (k - 1)))
    else []) ++ (List.replicate (w k) (bytes (acrossChar (lineAbove t w r k)))).flatten

open Classical in
/-- A line of a row. -/
noncomputable def textRow (t : Table) (w h : Nat → Nat) (r i : Nat) : Str :=
  (List.range t.numCols).flatMap fun k =>
    (if LineLeft t h k then bytes (downChar (lineLeft t h r k)) else []) ++
    pad ((t.cell (r, k)).hAlign.getD (t.hAligns k)) (w k)
      (visible ((t.cell (r, k)).vAlign.getD (t.vAligns k)) (h r) (cellLines (t.cell (r, k)).text) i)

open Classical in
/-- A table without spans: what is seen, given the sizes of columns and rows. -/
noncomputable def grid (t : Table) (w h : Nat → Nat) : List Str :=
  (List.range t.numRows).flatMap fun r =>
    (if LineAbove t w r then [borderRow t w h r] else []) ++ (List.range (h r)).map (textRow t w h r)

end Verif.LayoutSpec
