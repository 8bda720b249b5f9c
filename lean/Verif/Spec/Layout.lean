import Verif.Model.TableLayout
import Verif.Spec.Text
import Mathlib.Algebra.BigOperators.Group.Finset.Basic

/-!
# What a printed table should look like
-/

namespace Verif.LayoutSpec
open Layout TextSpec

/-- Columns on the screen from a state on: within an escape sequence, which ends with `m`, nothing is shown.  Bytes
that continue a character in UTF-8 take no column, every other byte takes one. -/
def columnsFrom : (inEscape : Bool) → Str → Nat
  | _, [] => 0
  | true, c :: s => columnsFrom (c != 'm') s
  | false, c :: s =>
    if c = Char.ofNat 27 then columnsFrom true s
    else (if 128 ≤ c.toNat ∧ c.toNat < 192 then 0 else 1) + columnsFrom false s

/-- Columns a line takes on the screen. -/
def columns (s : Str) : Nat := columnsFrom false s

/-- Lines whose width is found correctly: ASCII only, every escape sequence is complete, and no
escape sequence follows another one directly (the flag tells whether one may come next). -/
inductive TidyLine : Bool → Str → Prop
  | nil {b} : TidyLine b []
  | char {b c s} : c ≠ Char.ofNat 27 → c ≠ '\n' → c.toNat < 128 → TidyLine true s → TidyLine b (c :: s)
  | escape {body s} : (∀ c ∈ body, c ≠ 'm' ∧ c ≠ '\n') → TidyLine false s →
      TidyLine true (Char.ofNat 27 :: (body ++ 'm' :: s))

/-- Texts of cells: no text, or lines as above the first of which does not start with a newline. -/
def Tidy : Option Str → Prop
  | none => True
  | some s => s.head? ≠ some '\n' ∧ ∀ ls, Lines s ls → ∀ l ∈ ls, TidyLine true l

/-- 1 if there is a line in a place. -/
def bit (c : Nat → Nat) (k : Nat) : Nat := if 0 < c k then 1 else 0

/-- The room of `n` columns from `x` on together with the lines between them. -/
def room (w c : Nat → Nat) (x n : Nat) : Nat :=
  ∑ i ∈ Finset.range n, w (x + i) + ∑ i ∈ Finset.range (n - 1), bit c (x + 1 + i)

/-- The width of a whole line. -/
def lineWidth (w c : Nat → Nat) (n : Nat) : Nat := ∑ i ∈ Finset.range n, (bit c i + w i)

/-- A cell that a span may use. -/
def Free (c : Cell) : Prop := c.isSet = false ∧ c.parent = none ∧ c.spanX = 1 ∧ c.spanY = 1

/-- What is asked of the calls: texts are tidy, and a span covers free cells only. -/
def Proper (t : Table) : Call → Prop
  | .add s => Tidy s
  | .setSpan sx sy => (t.cell (t.curRow, t.curCol)).parent = none ∧
      ∀ i j, i < sy → j < sx → (i, j) ≠ (0, 0) → t.curRow + i < t.numRows →
        Free (t.cell (t.curRow + i, t.curCol + j))
  | _ => True

/-- Tables made by proper calls. -/
inductive Made : Table → Prop
  | empty : Made empty
  | call {t t' c} : Made t → Proper t c → Layout.call c t = .ok t' → Made t'

/-- Calls that do not span. -/
def Spanless : Call → Prop
  | .setSpan _ _ => False
  | _ => True

/-- Calls whose texts are tidy. -/
def TidyCall : Call → Prop
  | .add s => Tidy s
  | _ => True

/-- The calls for a table with the given rows, as the clients make them. -/
def rowCalls (rows : List (List (Option Str))) : List Call :=
  rows.flatMap fun r => r.map .add ++ [.nextRow]

/-- The calls for a text, which may have its own alignment. -/
def markCell (c : Option HAlign × Option Str) : List Call := (c.1.map Call.overrideH).toList ++ [.add c.2]

/-- The calls for rows in which an alignment may be overridden for a whole row and for a cell. -/
def markedCalls (rows : List (Option HAlign × List (Option HAlign × Option Str))) : List Call :=
  rows.flatMap fun r => (r.1.map Call.overrideHRow).toList ++ r.2.flatMap markCell ++ [.nextRow]

/-- The alignment of a cell: its own, or that of its row, or that of its column, or to the left. -/
def alignIn (hs : List HAlign) (rows : List (Option HAlign × List (Option HAlign × Option Str))) (r k : Nat) : HAlign :=
  match (rows[r]?).bind (·.2[k]?) with
  | some (some a, _) => a
  | _ => match (rows[r]?).bind (·.1) with
    | some a => a
    | none => hs[k]?.getD .left

/-- 1 if a style is a line. -/
def lined (b : Border) : Nat := if b = .none then 0 else 1

/-- How many lines are asked for to the left of a column: by cells of the table, and for the whole column. -/
def leftLines (t : Table) (k : Nat) : Nat :=
  ∑ r ∈ Finset.range t.numRows, lined ((t.cell (r, k)).left.getD .none) + lined (t.colBorder k)

/-- How many lines are asked for above a row: by its cells, and for the whole row. -/
def aboveLines (t : Table) (r : Nat) : Nat :=
  ∑ k ∈ Finset.range maxCols, lined ((t.cell (r, k)).above.getD .none) + lined (t.rowBorder r)

end Verif.LayoutSpec
