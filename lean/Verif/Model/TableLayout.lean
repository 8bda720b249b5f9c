import Verif.Model.Session
import Verif.Model.StringUtil

/-!
# Layout of tables (src/table/table.c)

Memory of a table: cells are addressed by row and column, rows of the linked list by their
index, so `cell->x`, `cell->y` and pointers to cells and rows are positions.  Arrays are functions; every access
is checked against the length of the array first, outside of it the outcome is `ub`.  An `assert` that
fails ends the program (`defect`).  Sizes of texts are supposed to be below `2^31`, so they fit into
`int`.  What is printed is a list of bytes.  Freeing of rows and texts is modelled in `Model/LayoutHeap`.
-/

namespace Verif.Layout

/-- `TABLE_MAX_COLS`, src/table/table.h:6 -/
def maxCols : Nat := 11

/-- `TableBorderStyle`, table.h:8-13 -/
inductive Border where
  | none
  | single
  | double
deriving DecidableEq, Repr

/-- `TableHAlign`, table.h:15-20 -/
inductive HAlign where
  | left
  | right
  | center
deriving DecidableEq, Repr

/-- `TableVAlign`, table.h:22-27 -/
inductive VAlign where
  | top
  | bottom
  | center
deriving DecidableEq, Repr

/-- `struct Cell`, src/table/table.c:14-39.  A setting and the flag that it overrides the default
are one optional value.  The initial values are those of `malloc_row`, table.c:487-509. -/
structure Cell where
  text : Option Str := none
  height : Nat := 0
  width : Nat := 0
  hAlign : Option HAlign := none
  vAlign : Option VAlign := none
  left : Option Border := none
  above : Option Border := none
  spanX : Nat := 1
  spanY : Nat := 1
  isSet : Bool := false
  parent : Option (Nat × Nat) := none
deriving DecidableEq, Repr

/-- `struct Table` and `struct Row`, table.c:41-60.  Cells are found by row and column. -/
structure Table where
  numCols : Nat
  numRows : Nat
  curRow : Nat
  curCol : Nat
  cell : Nat × Nat → Cell
  rowBorder : Nat → Border
  rowCounter : Nat → Nat
  colBorder : Nat → Border
  colCounter : Nat → Nat
  hAligns : Nat → HAlign
  vAligns : Nat → VAlign

/-- Writing to an array. -/
def put {α β : Type} [DecidableEq α] (f : α → β) (a : α) (b : β) : α → β := fun x => if x = a then b else f x

/-! ## Texts -/

/-- `ESC_START`, src/util/string_util.c:8 -/
def esc : Char := Char.ofNat 27

/-- The loop of `skip_ansi`, string_util.c:135-139: behind the next `m` (`ESC_END`); beyond the end of
the string if there is none. -/
def afterM : Str → Res Str
  | [] => .ub
  | c :: s => if c = 'm' then .ok s else afterM s

/-- `skip_ansi`, string_util.c:131-142 -/
def skipAnsi : Str → Res Str
  | [] => .ok []
  | c :: s => if c = esc then afterM s else .ok (c :: s)

/-- The loop of `console_strlen`, table.c:118-122.  The string gets shorter in every round, so as
many rounds as it has characters suffice. -/
def strlenLoop : (rounds : Nat) → Str → Res Nat
  | 0, _ => .ok 0
  | _ + 1, [] => .ok 0
  | n + 1, c :: s =>
    if c = '\n' then .ok 0
    else do
      let s' ← skipAnsi s
      let k ← strlenLoop n s'
      pure (k + 1)

/-- `console_strlen`, table.c:114-124 -/
def consoleStrlen (s : Str) : Res Nat := do
  let s' ← skipAnsi s
  strlenLoop s'.length s'

/-- `get_text_height`, table.c:127-141 -/
def textHeight : Option Str → Nat
  | none => 0
  | some s => s.count '\n' + 1

/-- The loop of `get_text_width`, table.c:147-153, from line `i` on.  `line` is not initialised. -/
def textWidthLoop (text : Option Str) : (rounds i res : Nat) → Res Nat
  | 0, _, res => .ok res
  | n + 1, i, res =>
    match getLineOfString text i with
    | .line start _ => do
      let w ← consoleStrlen start
      textWidthLoop text n (i + 1) (max w res)
    | _ => .ub

/-- `get_text_width`, table.c:143-155 -/
def textWidth (text : Option Str) : Res Nat := textWidthLoop text (textHeight text) 0 0

/-! ## Filling a table -/

/-- `get_empty_table`, table.c:661-677 -/
def empty : Table where
  numCols := 0
  numRows := 1
  curRow := 0
  curCol := 0
  cell _ := {}
  rowBorder _ := .none
  rowCounter _ := 0
  colBorder _ := .none
  colCounter _ := 0
  hAligns _ := .left
  vAligns _ := .top

/-- `append_row`, table.c:511-521 -/
def appendRow (t : Table) : Table :=
  { t with
    numRows := t.numRows + 1
    cell := fun p => if p.1 = t.numRows then {} else t.cell p
    rowBorder := put t.rowBorder t.numRows .none
    rowCounter := put t.rowCounter t.numRows 0 }

/-- The loop of `set_position`, table.c:709-712 -/
def appendRows : Nat → Table → Table
  | 0, t => t
  | n + 1, t => appendRows n (appendRow t)

/-- `set_position`, table.c:697-714 -/
def setPosition (x y : Nat) (t : Table) : Res Table :=
  if maxCols ≤ x then .defect
  else .ok { appendRows (y + 1 - t.numRows) t with curCol := x, curRow := y }

/-- The loops that skip set cells, table.c:469-472 and 732-735: the column, and
at most `n` columns from there. -/
def skipSet (t : Table) (r : Nat) : (n k : Nat) → Nat
  | 0, k => k
  | n + 1, k => if (t.cell (r, k)).isSet then skipSet t r n (k + 1) else k

/-- `next_row`, table.c:719-737 -/
def nextRow (t : Table) : Table :=
  if t.curRow + 1 < t.numRows then
    { t with curRow := t.curRow + 1, curCol := skipSet t (t.curRow + 1) maxCols 0 }
  else { appendRow t with curRow := t.numRows, curCol := 0 }

/-- Changes a cell. -/
def setCell (t : Table) (p : Nat × Nat) (f : Cell → Cell) : Table := { t with cell := put t.cell p (f (t.cell p)) }

/-- `add_text_cell`, table.c:455-473; this is `add_cell`, `add_cell_gc`, `add_empty_cell` and
`add_cell_vfmt`. -/
def addText (text : Option Str) (t : Table) : Res Table :=
  if maxCols ≤ t.curCol then .ub
  else do
    let w ← textWidth text
    let t1 := setCell t (t.curRow, t.curCol) fun c =>
      { c with isSet := true, text := text, height := textHeight text, width := w }
    pure { t1 with
      numCols := if t.numCols ≤ t.curCol then t.curCol + 1 else t.numCols
      curCol := skipSet t1 t.curRow (maxCols - t.curCol) t.curCol }

/-- `set_default_alignments`, table.c:811-821; NULL is the empty list. -/
def setAligns (hs : List HAlign) (vs : List VAlign) (t : Table) : Res Table :=
  if maxCols < hs.length ∨ maxCols < vs.length then .defect
  else .ok { t with hAligns := fun i => hs[i]?.getD (t.hAligns i), vAligns := fun i => vs[i]?.getD (t.vAligns i) }

/-- Changes the current cell (`get_curr_cell`, table.c:523-526), which may be out of bounds. -/
def onCurrent (f : Cell → Cell) (t : Table) : Res Table :=
  if maxCols ≤ t.curCol then .ub else .ok (setCell t (t.curRow, t.curCol) f)

/-- Changes all cells of the current row, as the loops in table.c:844-847 and 853-856. -/
def onRow (f : Cell → Cell) (t : Table) : Table :=
  { t with cell := fun p => if p.1 = t.curRow ∧ p.2 < maxCols then f (t.cell p) else t.cell p }

/-- The counter after a style has been replaced, as in table.c:862-869. -/
def recount (old new : Border) (n : Nat) : Nat :=
  (if old ≠ .none then n - 1 else n) + (if new ≠ .none then 1 else 0)

/-- `set_hline`, table.c:859-871 -/
def setHline (s : Border) (t : Table) : Table :=
  { t with
    rowCounter := put t.rowCounter t.curRow (recount (t.rowBorder t.curRow) s (t.rowCounter t.curRow))
    rowBorder := put t.rowBorder t.curRow s }

/-- `set_vline`, table.c:873-892 -/
def setVline (i : Nat) (s : Border) (t : Table) : Res Table :=
  if maxCols ≤ i then .defect
  else .ok { t with
    numCols := if t.numCols ≤ i then i + 1 else t.numCols
    colCounter := put t.colCounter i (recount (t.colBorder i) s (t.colCounter i))
    colBorder := put t.colBorder i s }

/-- `make_boxed`, table.c:894-903 -/
def makeBoxed (s : Border) (t : Table) : Res Table := do
  let t ← setPosition 0 0 t
  let t ← setVline 0 s t
  let t := setHline s t
  let t ← setPosition t.numCols (t.numRows - 1) t
  let t ← setVline t.numCols s t
  pure (setHline s t)

/-- `override_left_border`, table.c:905-920 -/
def overrideLeft (s : Border) (t : Table) : Res Table :=
  if maxCols ≤ t.curCol then .ub
  else
    let c := t.cell (t.curRow, t.curCol)
    .ok { setCell t (t.curRow, t.curCol) fun c => { c with left := some s } with
      colCounter := put t.colCounter t.curCol (recount (c.left.getD .none) s (t.colCounter t.curCol)) }

/-- `override_above_border`, table.c:922-937 -/
def overrideAbove (s : Border) (t : Table) : Res Table :=
  if maxCols ≤ t.curCol then .ub
  else
    let c := t.cell (t.curRow, t.curCol)
    .ok { setCell t (t.curRow, t.curCol) fun c => { c with above := some s } with
      rowCounter := put t.rowCounter t.curRow (recount (c.above.getD .none) s (t.rowCounter t.curRow)) }

/-- The body of the inner loop of `set_span` for a free cell, table.c:966-981; `i` and `j` are the offsets
to the spanning cell `p`. -/
def adopt (p : Nat × Nat) (i j : Nat) (c : Cell) : Cell :=
  { c with
    isSet := true
    parent := some p
    left := if j ≠ 0 then some .none else c.left
    above := if i ≠ 0 then some .none else c.above }

/-- The inner loop of `set_span`, table.c:961-989, from offset `j` on, `n` rounds: the table, and whether the
span was cut. -/
def spanRow (p : Nat × Nat) (i : Nat) : (n j : Nat) → Table → Table × Bool
  | 0, _, t => (t, false)
  | n + 1, j, t =>
    if i = 0 ∧ j = 0 then spanRow p i n (j + 1) t
    else if (t.cell (p.1 + i, p.2 + j)).isSet then
      (setCell t p fun c => { c with spanY := i, spanX := j }, true)
    else spanRow p i n (j + 1) (setCell t (p.1 + i, p.2 + j) (adopt p i j))

/-- The outer loop of `set_span`, table.c:958-999, from offset `i` on, `n` rounds. -/
def spanRows (p : Nat × Nat) (spanX : Nat) : (n i : Nat) → Table → Table
  | 0, _, t => t
  | n + 1, i, t =>
    match spanRow p i spanX 0 t with
    | (t', true) => t'
    | (t', false) =>
      let t'' := if n ≠ 0 ∧ t'.numRows ≤ p.1 + i + 1 then appendRow t' else t'
      spanRows p spanX n (i + 1) t''

/-- `set_span`, table.c:943-1000 -/
def setSpan (spanX spanY : Nat) (t : Table) : Res Table :=
  let p := (t.curRow, t.curCol)
  if spanX = 0 ∨ spanY = 0 ∨ maxCols < t.curCol + spanX ∨ (t.cell p).spanX ≠ 1 ∨ (t.cell p).spanY ≠ 1 then .defect
  else
    let t1 := { setCell t p fun c => { c with spanX := spanX, spanY := spanY } with
      numCols := max (t.curCol + spanX) t.numCols }
    .ok (spanRows p spanX spanY 0 t1)

/-- The loop of `set_all_vlines`, table.c:1007-1010: columns from `i` on, `n` rounds. -/
def vlinesLoop (s : Border) : (n i : Nat) → Table → Res Table
  | 0, _, t => .ok t
  | n + 1, i, t => do
    let t ← setVline i s t
    vlinesLoop s n (i + 1) t

/-- `set_all_vlines`, table.c:1002-1012; `set_vline` does not change the number of columns here. -/
def setAllVlines (s : Border) (t : Table) : Res Table := vlinesLoop s (t.numCols - 1) 1 t

/-- Calls of the functions in table.h:37-63 that change a table. -/
inductive Call where
  | setPosition (x y : Nat)
  | nextRow
  | add (text : Option Str)
  | setAligns (hs : List HAlign) (vs : List VAlign)
  | overrideH (a : HAlign)
  | overrideV (a : VAlign)
  | overrideHRow (a : HAlign)
  | overrideVRow (a : VAlign)
  | setHline (s : Border)
  | setVline (i : Nat) (s : Border)
  | makeBoxed (s : Border)
  | setAllVlines (s : Border)
  | overrideLeft (s : Border)
  | overrideAbove (s : Border)
  | setSpan (x y : Nat)
deriving DecidableEq, Repr

/-- What a call does: the functions above; table.c:826-857 for the alignments. -/
def call : Call → Table → Res Table
  | .setPosition x y, t => setPosition x y t
  | .nextRow, t => .ok (nextRow t)
  | .add s, t => addText s t
  | .setAligns hs vs, t => setAligns hs vs t
  | .overrideH a, t => onCurrent (fun c => { c with hAlign := some a }) t
  | .overrideV a, t => onCurrent (fun c => { c with vAlign := some a }) t
  | .overrideHRow a, t => .ok (onRow (fun c => { c with hAlign := some a }) t)
  | .overrideVRow a, t => .ok (onRow (fun c => { c with vAlign := some a }) t)
  | .setHline s, t => .ok (setHline s t)
  | .setVline i s, t => setVline i s t
  | .makeBoxed s, t => makeBoxed s t
  | .setAllVlines s, t => setAllVlines s t
  | .overrideLeft s, t => overrideLeft s t
  | .overrideAbove s, t => overrideAbove s t
  | .setSpan x y, t => setSpan x y t

/-- Several calls. -/
def calls : List Call → Table → Res Table
  | [], t => .ok t
  | c :: cs, t => do
    let t ← call c t
    calls cs t

/-! ## Dimensions -/

/-- `struct Constraint`, table.c:63-68 -/
structure Constraint where
  lo : Nat
  hi : Nat
  min : Nat
deriving DecidableEq, Repr

/-- The sum in `needed_to_satisfy`, table.c:542-546: `n` numbers from `i` on. -/
def sumFrom (f : Nat → Nat) : (n i : Nat) → Nat
  | 0, _ => 0
  | n + 1, i => f i + sumFrom f n (i + 1)

/-- `needed_to_satisfy`, table.c:540-548 -/
def needed (c : Constraint) (f : Nat → Nat) : Nat := c.min - sumFrom f (c.hi - c.lo) c.lo

/-- The first loop of `satisfy_constraints`, table.c:554-563 -/
def satisfySimple : List Constraint → (Nat → Nat) → Nat → Nat
  | [], f => f
  | c :: cs, f =>
    satisfySimple cs (if c.hi - c.lo = 1 then if f c.lo < c.min then put f c.lo c.min else f else f)

/-- The innermost loop of `satisfy_constraints`, table.c:574-578, from `j` on, `n` rounds. -/
def distribute (c : Constraint) (need : Nat) : (n j : Nat) → (Nat → Nat) → Nat → Nat
  | 0, _, f => f
  | n + 1, j, f =>
    distribute c need n (j + 1)
      (put f (c.lo + j) (f (c.lo + j) + need / (c.hi - c.lo) + if need % (c.hi - c.lo) > j then 1 else 0))

/-- The second loop of `satisfy_constraints`, table.c:565-581 -/
def satisfyRest : List Constraint → (Nat → Nat) → Nat → Nat
  | [], f => f
  | c :: cs, f => satisfyRest cs (if needed c f > 0 then distribute c (needed c f) (c.hi - c.lo) 0 f else f)

/-- `satisfy_constraints`, table.c:551-582, on an array of length `n` that holds zeros. -/
def satisfy (n : Nat) (cs : List Constraint) : Res (Nat → Nat) :=
  if cs.any fun c => n < c.hi then .ub
  else .ok (satisfyRest cs (satisfySimple cs fun _ => 0))

/-- The loops that weaken a constraint, table.c:600-604 and 633-638: one for each line in `n`
places from `j` on. -/
def weaken (line : Nat → Bool) : (n j min : Nat) → Nat
  | 0, _, min => min
  | n + 1, j, min => if min = 0 then 0 else weaken line n (j + 1) (if line j then min - 1 else min)

/-- Positions of the cells in the order of the loops in table.c:588-615. -/
def positions (t : Table) : List (Nat × Nat) :=
  (List.range t.numRows).flatMap fun r => (List.range t.numCols).map fun k => (r, k)

/-- Cells that give constraints, table.c:595 and 627. -/
def heads (t : Table) : List (Nat × Nat) :=
  (positions t).filter fun p => (t.cell p).isSet && (t.cell p).parent == none

/-- Constraints of width, table.c:597-611.  The counters are read below the index 11 only, since a
span ends within the table (`assert` in set_span). -/
def widthConstraint (t : Table) (p : Nat × Nat) : Constraint :=
  { lo := p.2
    hi := p.2 + (t.cell p).spanX
    min := weaken (fun j => t.colCounter j > 0) ((t.cell p).spanX - 1) (p.2 + 1) (t.cell p).width }

/-- Constraints of height, table.c:629-645; rows are looked at as long as there are rows. -/
def heightConstraint (t : Table) (p : Nat × Nat) : Constraint :=
  { lo := p.1
    hi := p.1 + (t.cell p).spanY
    min := weaken (fun j => decide (j < t.numRows) && decide (t.rowCounter j > 0)) ((t.cell p).spanY - 1) (p.1 + 1)
      (t.cell p).height }

/-- `get_dimensions`, table.c:584-654: widths of columns and heights of rows.  There is at most one constraint
for a cell, so they fit into `constrs`. -/
def dimensions (t : Table) : Res ((Nat → Nat) × (Nat → Nat)) := do
  let w ← satisfy t.numCols ((heads t).map (widthConstraint t))
  let h ← satisfy t.numRows ((heads t).map (heightConstraint t))
  pure (w, h)

/-! ## Printing -/

/-- The bytes of a character in UTF-8, for the characters in table.c:70-82. -/
def utf8 (c : Char) : Str :=
  if c.toNat < 128 then [c]
  else [Char.ofNat (224 + c.toNat / 4096), Char.ofNat (128 + c.toNat / 64 % 64), Char.ofNat (128 + c.toNat % 64)]

/-- `BORDER_MATRIX_SINGLE`, table.c:70-75 -/
def matrixSingle : List Char := ['┌', '┬', '┐', '├', '┼', '┤', '└', '┴', '┘', '─', '│', ' ']

/-- `BORDER_MATRIX_DOUBLE`, table.c:77-82 -/
def matrixDouble : List Char := ['╔', '╦', '╗', '╠', '╬', '╣', '╚', '╩', '╝', '═', '║', ' ']

/-- `BORDER_LOOKUP`, table.c:88 -/
def borderLookup : List Nat := [11, 11, 11, 6, 11, 10, 0, 3, 11, 8, 9, 7, 2, 5, 1, 4]

/-- An entry of one of the tables. -/
def glyph (m : List Char) (i : Nat) : Str := utf8 (m[i]?.getD ' ')

/-- The parent of a cell or the cell itself, as in table.c:170-173, 233, 246, 259-269. -/
def owner (t : Table) (p : Nat × Nat) : Nat × Nat := (t.cell p).parent.getD p

/-- `get_h_align`, table.c:97-101.  A parent lies above or to the left, so as many rounds as the
sum of row and column suffice. -/
def getHAlign (t : Table) (d : HAlign) : (rounds : Nat) → Nat × Nat → HAlign
  | 0, _ => d
  | n + 1, p =>
    match (t.cell p).parent with
    | some q => getHAlign t d n q
    | none => (t.cell p).hAlign.getD d

/-- `get_v_align`, table.c:103-107 -/
def getVAlign (t : Table) (d : VAlign) : (rounds : Nat) → Nat × Nat → VAlign
  | 0, _ => d
  | n + 1, p =>
    match (t.cell p).parent with
    | some q => getVAlign t d n q
    | none => (t.cell p).vAlign.getD d

/-- Subtraction of `size_t`. -/
def sizeSub (a b : Nat) : Nat := if b ≤ a then a - b else 2 ^ 64 + a - b

/-- Conversion of `size_t` to `int`. -/
def toInt (n : Nat) : Int := Int.bmod n (2 ^ 32)

/-- `actual_line` in `print_text`, table.c:175-188 -/
def actualLine (a : VAlign) (line totalHeight height : Nat) : Int :=
  match a with
  | .top => toInt line
  | .center => toInt (sizeSub line (sizeSub totalHeight height / 2))
  | .bottom => toInt (sizeSub line (sizeSub totalHeight height))

/-- Blanks. -/
def spaces (n : Nat) : Str := List.replicate n ' '

/-- The format `%-*s`. -/
def padRight (w : Int) (s : Str) : Str := s ++ spaces (w.natAbs - s.length)

/-- The format `%*s`; a negative width means `%-*s`. -/
def padLeft (w : Int) (s : Str) : Str := if w < 0 then padRight w s else spaces (w.natAbs - s.length) ++ s

/-- table.c:204-228: a line of text in a cell of width `w`; `s` are the `bytes` of the line and `len` is its
length as displayed. -/
def alignText (a : HAlign) (w len : Nat) (s : Str) : Str :=
  let adjusted : Int := w + s.length - len
  match a with
  | .left => padRight adjusted s
  | .right => padLeft adjusted s
  | .center =>
    let d : Int := w - len
    let padding := d.tdiv 2
    padLeft padding [] ++ s ++ padLeft (if d.tmod 2 = 0 then padding else padding + 1) []

/-- `print_text`, table.c:162-229 -/
def printText (t : Table) (q : Nat × Nat) (h : HAlign) (v : VAlign) (line w th : Nat) : Res Str :=
  let p := owner t q
  let c := t.cell p
  let actual := actualLine (getVAlign t v (p.1 + p.2 + 1) p) line th c.height
  if actual < 0 then .ok (spaces w)
  else match getLineOfString c.text actual.toNat with
    | .line start bytes => do
      let len ← consoleStrlen start
      pure (alignText (getHAlign t h (p.1 + p.2 + 1) p) w len (start.take bytes))
    | _ => .ok (spaces w)

/-- The loop of `get_total_width`, table.c:236-240: the columns from `i` on, `n` rounds.  Columns beyond
the last have no width. -/
def totalWidthLoop (t : Table) (w : Nat → Nat) (x : Nat) : (n i sum : Nat) → Res Nat
  | 0, _, sum => .ok sum
  | n + 1, i, sum =>
    if (i ≠ 0 ∧ maxCols ≤ x + i + 1) ∨ t.numCols ≤ x + i then .ub
    else totalWidthLoop t w x n (i + 1) (sum + (if i ≠ 0 ∧ t.colCounter (x + i + 1) > 0 then 1 else 0) + w (x + i))

/-- `get_total_width`, table.c:231-242 -/
def totalWidth (t : Table) (w : Nat → Nat) (q : Nat × Nat) : Res Nat :=
  totalWidthLoop t w (owner t q).2 (t.cell (owner t q)).spanX 0 0

/-- The loop of `get_total_height`, table.c:249-255. -/
def totalHeightLoop (t : Table) (h : Nat → Nat) (y : Nat) : (n i sum : Nat) → Res Nat
  | 0, _, sum => .ok sum
  | n + 1, i, sum =>
    if t.numRows ≤ y + i then .ub
    else totalHeightLoop t h y n (i + 1) (sum + (if i ≠ 0 ∧ t.rowCounter (y + i) > 0 then 1 else 0) + h (y + i))

/-- `get_total_height`, table.c:244-257 -/
def totalHeight (t : Table) (h : Nat → Nat) (q : Nat × Nat) : Res Nat :=
  totalHeightLoop t h (owner t q).1 (t.cell (owner t q)).spanY 0 0

/-- `get_border_above`, table.c:271-281 -/
def borderAbove (t : Table) (p : Nat × Nat) : Border := (t.cell p).above.getD (t.rowBorder p.1)

/-- `get_border_left`, table.c:283-293 -/
def borderLeft (t : Table) (p : Nat × Nat) : Border := (t.cell p).left.getD (t.colBorder p.2)

/-- `print_intersection_char`, table.c:301-366, for the corner above and to the left of the cell in row
`r` and column `k`.  For the first row there are no cells above. -/
def intersection (t : Table) (r k : Nat) : Str :=
  let above := if r = 0 then Border.none else borderLeft t (r - 1, k)
  let right := borderAbove t (r, k)
  let below := borderLeft t (r, k)
  let left := if k = 0 then Border.none else borderAbove t (r, k - 1)
  let all := [above, right, below, left]
  let index := (if above ≠ .none then 1 else 0) + (if right ≠ .none then 2 else 0) + (if below ≠ .none then 4 else 0)
    + (if left ≠ .none then 8 else 0)
  glyph (if all.count .double > all.count .single then matrixDouble else matrixSingle) (borderLookup[index]?.getD 11)

/-- `print_repeated`, table.c:157-160 -/
def repeated (s : Str) : Nat → Str
  | 0 => []
  | n + 1 => s ++ repeated s n

/-- The horizontal line above a cell, table.c:392-402. -/
def hline (b : Border) (w : Nat) : Str :=
  match b with
  | .single => repeated (glyph matrixSingle 9) w
  | .double => repeated (glyph matrixDouble 9) w
  | .none => repeated [' '] w

/-- The vertical line to the left of a cell, table.c:1087-1097. -/
def vline : Border → Str
  | .single => glyph matrixSingle 10
  | .double => glyph matrixDouble 10
  | .none => [' ']

/-- `print_text` as called in table.c:407-413 and 1100-1106, for the cell `q` printed in column
`k`. -/
def cellText (t : Table) (w h : Nat → Nat) (li : Nat → Nat) (k : Nat) (q : Nat × Nat) : Res Str := do
  let tw ← totalWidth t w q
  let th ← totalHeight t h q
  printText t q (t.hAligns k) (t.vAligns k) (li k) tw th

/-- The loop of `print_row_border`, table.c:377-418, from column `i` on: what is printed, and
`line_indices`.  In every round in which the column does not grow the state stays the same, so the loop does
not end if it takes more rounds than there are columns. -/
def rowBorderLoop (t : Table) (w h : Nat → Nat) (r : Nat) : (rounds i : Nat) → (Nat → Nat) → Out (Str × (Nat → Nat))
  | 0, i, li => if i < t.numCols then .hang else .ok ([], li)
  | n + 1, i, li =>
    if i < t.numCols then do
      let corner := if t.colCounter i > 0 then intersection t r i else []
      match (t.cell (r, i)).parent with
      | some q =>
        if q.1 = r then do
          let (s, li') ← rowBorderLoop t w h r n (i + 1) li
          pure (corner ++ hline (borderAbove t (r, i)) (w i) ++ s, li')
        else do
          let text ← Out.of (cellText t w h li i q)
          let (s, li') ← rowBorderLoop t w h r n (i + (t.cell q).spanX) (put li i (li i + 1))
          pure (corner ++ text ++ s, li')
      | none => do
        let (s, li') ← rowBorderLoop t w h r n (i + 1) li
        pure (corner ++ hline (borderAbove t (r, i)) (w i) ++ s, li')
    else .ok ([], li)

/-- The loop over the cells of a line, table.c:1083-1109. -/
def lineLoop (t : Table) (w h : Nat → Nat) (r : Nat) : (rounds k : Nat) → (Nat → Nat) → Out (Str × (Nat → Nat))
  | 0, k, li => if k < t.numCols then .hang else .ok ([], li)
  | n + 1, k, li =>
    if k < t.numCols then do
      let border := if t.colCounter k > 0 then vline (borderLeft t (r, k)) else []
      let text ← Out.of (cellText t w h li k (r, k))
      let (s, li') ← lineLoop t w h r n (k + (t.cell (owner t (r, k))).spanX) (put li k (li k + 1))
      pure (border ++ text ++ s, li')
    else .ok ([], li)

/-- The loop over the lines of a row, table.c:1080-1112: the lines, each ends with a newline. -/
def rowLines (t : Table) (w h : Nat → Nat) (r : Nat) : (n : Nat) → (Nat → Nat) → Out (List Str × (Nat → Nat))
  | 0, li => .ok ([], li)
  | n + 1, li => do
    let (l, li1) ← lineLoop t w h r t.numCols 0 li
    let (ls, li2) ← rowLines t w h r n li1
    pure (l :: ls, li2)

/-- The reset of `line_indices`, table.c:1071-1078. -/
def resetLines (t : Table) (r : Nat) (li : Nat → Nat) : Nat → Nat := fun j =>
  match (t.cell (r, j)).parent with
  | none => 0
  | some q => if r = q.1 then 0 else li j

/-- The loop over the rows, table.c:1064-1117: `n` rows from `r` on. -/
def rowsLoop (t : Table) (w h : Nat → Nat) : (n r : Nat) → (Nat → Nat) → Out (List Str)
  | 0, _, _ => .ok []
  | n + 1, r, li => do
    let (top, li1) ← if t.rowCounter r > 0 then do
        let (l, li1) ← rowBorderLoop t w h r t.numCols 0 li
        pure ([l], li1)
      else pure ([], li)
    let (ls, li2) ← rowLines t w h r (h r) (resetLines t r li1)
    let rest ← rowsLoop t w h n (r + 1) li2
    pure (top ++ ls ++ rest)

/-- The first loop of `override_superfluous_lines`, table.c:426-433: removes the lines above the cells of the
last column, `n` rows from `r` on. -/
def dropAbove (n r : Nat) (t : Table) : Res Table :=
  match n with
  | 0 => .ok t
  | n + 1 => do
    let t ← overrideAbove .none { t with curRow := r }
    dropAbove n (r + 1) t

/-- The last loop of `override_superfluous_lines`, table.c:447-451: removes the lines to the left of the cells
of the last row, `n` columns from `k` on. -/
def dropLeft (n k : Nat) (t : Table) : Res Table :=
  match n with
  | 0 => .ok t
  | n + 1 => do
    let t ← overrideLeft .none { t with curCol := k }
    dropLeft n (k + 1) t

/-- `override_superfluous_lines`, table.c:421-453 -/
def dropLines (lastWidth lastHeight : Nat) (t : Table) : Res Table := do
  let t ← if lastWidth = 0 then dropAbove t.numRows 0 { t with curCol := t.numCols - 1 }
    else pure { t with curRow := t.numRows - 1 }
  if lastHeight = 0 then dropLeft t.numCols 0 t else pure t

/-- `fprint_table`, table.c:1041-1120: the lines that are printed; each ends with a newline.  The table
is changed, too, if there are superfluous lines. -/
def print (t : Table) : Out (List Str × Table) :=
  if t.numCols = 0 then .ok ([], t)
  else do
    let (w, h) ← Out.of (dimensions t)
    let t1 ← Out.of (dropLines (w (t.numCols - 1)) (h (t.numRows - 1)) t)
    let ls ← rowsLoop t1 w h t1.numRows 0 fun _ => 0
    pure (ls, t1)

/-- What is printed as one text. -/
def output (ls : List Str) : Str := ls.flatMap (· ++ ['\n'])

end Verif.Layout
