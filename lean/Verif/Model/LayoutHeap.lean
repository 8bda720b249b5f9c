import Verif.Model.TableLayout

/-!
# Tables in memory (src/table/table.c)

The rows of a table as a linked list in memory, and the texts that belong to the table.  A pointer to a row is its
address, a pointer to a cell the address of its row with the column.  `Table` itself is a block without contents;
its components are a value (`MTable`).  Contents of texts are values, as in Model/TableLayout; only of texts that
are freed with the table the address matters.
-/

namespace Verif.Layout

/-- `struct Cell`, src/table/table.c:14-39: `own` is `text` if `text_needs_free` is set.  `data.parent` is
the address of the row and the column. -/
structure MCell where
  data : Cell
  own : Option Nat

/-- `struct Row`, table.c:41-47 -/
structure MRow where
  cells : Nat → MCell
  next : Option Nat
  border : Border
  counter : Nat

/-- What `malloc` has been called for. -/
inductive Block where
  | table
  | row (r : MRow)
  | text

/-- The memory. -/
structure TMem where
  blocks : List (Nat × Block)

/-- `malloc`: returns an address that is not in use. -/
structure TMalloc where
  pick : List (Nat × Block) → Nat
  fresh : ∀ blocks, ∀ b ∈ blocks, b.1 ≠ pick blocks

namespace TMem

/-- What is allocated at an address. -/
def get (m : TMem) (p : Nat) : Option Block := (m.blocks.find? fun b => b.1 = p).map (·.2)

/-- Writing. -/
def put (m : TMem) (p : Nat) (b : Block) : TMem := ⟨m.blocks.map fun d => if d.1 = p then (p, b) else d⟩

/-- `malloc_wrapper` and `calloc_wrapper` (src/util/alloc_wrappers.c:7-35) with the initialization. -/
def alloc (A : TMalloc) (m : TMem) (b : Block) : Nat × TMem := (A.pick m.blocks, ⟨(A.pick m.blocks, b) :: m.blocks⟩)

/-- `free(p)` -/
def free (m : TMem) (p : Nat) : Res TMem :=
  match m.get p with
  | some _ => .ok ⟨m.blocks.filter fun b => b.1 ≠ p⟩
  | none => .ub

/-- The row at an address. -/
def row (m : TMem) (p : Nat) : Res MRow :=
  match m.get p with
  | some (.row r) => .ok r
  | _ => .ub

/-- Changes a row. -/
def changeRow (m : TMem) (p : Nat) (f : MRow → MRow) : Res TMem := do
  let r ← m.row p
  pure (m.put p (.row (f r)))

/-- Changes a cell. -/
def changeCell (m : TMem) (p : Nat × Nat) (f : MCell → MCell) : Res TMem :=
  m.changeRow p.1 fun r => { r with cells := Layout.put r.cells p.2 (f (r.cells p.2)) }

end TMem

/-- `struct Table`, table.c:49-60, and its address. -/
structure MTable where
  addr : Nat
  first : Nat
  cur : Nat
  curCol : Nat
  numCols : Nat
  numRows : Nat
  colBorder : Nat → Border
  colCounter : Nat → Nat
  hAligns : Nat → HAlign
  vAligns : Nat → VAlign

/-- `malloc_row`, table.c:487-509 -/
def emptyRow : MRow := ⟨fun _ => ⟨{}, none⟩, none, .none, 0⟩

/-- `get_empty_table`, table.c:661-677 -/
def emptyAt (A : TMalloc) (m : TMem) : MTable × TMem :=
  let a := m.alloc A .table
  let r := a.2.alloc A (.row emptyRow)
  (⟨a.1, r.1, r.1, 0, 0, 1, fun _ => .none, fun _ => 0, fun _ => .left, fun _ => .top⟩, r.2)

/-- The loop of `append_row`, table.c:514-517; there are at most as many rows as blocks. -/
def lastRow (m : TMem) : (rounds p : Nat) → Res Nat
  | 0, _ => .ub
  | n + 1, p => do
    let r ← m.row p
    match r.next with
    | none => .ok p
    | some q => lastRow m n q

/-- `append_row`, table.c:511-521 -/
def appendAt (A : TMalloc) (T : MTable) (m : TMem) : Res (Nat × MTable × TMem) := do
  let l ← lastRow m m.blocks.length T.cur
  let a := m.alloc A (.row emptyRow)
  let m' ← a.2.changeRow l fun r => { r with next := some a.1 }
  pure (a.1, { T with numRows := T.numRows + 1 }, m')

/-- `get_row`, table.c:90-95 -/
def getRow (m : TMem) : (index : Nat) → Option Nat → Res (Option Nat)
  | 0, p => .ok p
  | _ + 1, none => .ok none
  | n + 1, some p => do
    let r ← m.row p
    getRow m n r.next

/-- The loop of `set_position`, table.c:709-712 -/
def appendLoop (A : TMalloc) : Nat → MTable → TMem → Res (MTable × TMem)
  | 0, T, m => .ok (T, m)
  | n + 1, T, m => do
    let r ← appendAt A T m
    appendLoop A n { r.2.1 with cur := r.1 } r.2.2

/-- `set_position`, table.c:697-714.  If `get_row` returned NULL, every use of the table would be undefined. -/
def setPositionAt (A : TMalloc) (x y : Nat) (T : MTable) (m : TMem) : Res (MTable × TMem) :=
  if maxCols ≤ x then .defect
  else if y < T.numRows then do
    match ← getRow m y (some T.first) with
    | none => .ub
    | some p => pure ({ T with curCol := x, cur := p }, m)
  else appendLoop A (y + 1 - T.numRows) { T with curCol := x } m

/-- The loops that skip set cells, table.c:469-472 and 732-735, as `skipSet`. -/
def skipSetAt (cells : Nat → MCell) : (n k : Nat) → Nat
  | 0, k => k
  | n + 1, k => if (cells k).data.isSet then skipSetAt cells n (k + 1) else k

/-- `next_row`, table.c:719-737 -/
def nextRowAt (A : TMalloc) (T : MTable) (m : TMem) : Res (MTable × TMem) := do
  let r ← m.row T.cur
  match r.next with
  | none => do
    let a ← appendAt A T m
    pure ({ a.2.1 with cur := a.1, curCol := 0 }, a.2.2)
  | some q => do
    let r' ← m.row q
    pure ({ T with cur := q, curCol := skipSetAt r'.cells maxCols 0 }, m)

/-- `add_text_cell`, table.c:455-473; `own` is the address of the text if `needs_free` is set. -/
def addTextAt (text : Option Str) (own : Option Nat) (T : MTable) (m : TMem) : Res (MTable × TMem) :=
  if maxCols ≤ T.curCol then .ub
  else do
    let w ← textWidth text
    let m1 ← m.changeCell (T.cur, T.curCol) fun c =>
      ⟨{ c.data with isSet := true, text := text, height := textHeight text, width := w }, own⟩
    let r ← m1.row T.cur
    pure ({ T with
      numCols := if T.numCols ≤ T.curCol then T.curCol + 1 else T.numCols
      curCol := skipSetAt r.cells (maxCols - T.curCol) T.curCol }, m1)

/-- `add_cell` (table.c:743-746) and `add_empty_cell` (767-770), or `add_cell_vfmt` (784-789) if `own` is set: the
buffer of the string builder becomes the property of the table, as with `add_cell_gc` (762-765). -/
def addAt (A : TMalloc) (text : Option Str) (own : Bool) (T : MTable) (m : TMem) : Res (MTable × TMem) :=
  if own then
    let a := m.alloc A .text
    addTextAt text (some a.1) T a.2
  else addTextAt text none T m

/-- Changes the current cell (`get_curr_cell`, table.c:523-526). -/
def onCurrentAt (f : Cell → Cell) (T : MTable) (m : TMem) : Res (MTable × TMem) :=
  if maxCols ≤ T.curCol then .ub
  else do
    let m' ← m.changeCell (T.cur, T.curCol) fun c => { c with data := f c.data }
    pure (T, m')

/-- The loops in table.c:844-847 and 853-856. -/
def onRowAt (f : Cell → Cell) (T : MTable) (m : TMem) : Res (MTable × TMem) := do
  let m' ← m.changeRow T.cur fun r =>
    { r with cells := fun j => if j < maxCols then { r.cells j with data := f (r.cells j).data } else r.cells j }
  pure (T, m')

/-- `set_hline`, table.c:859-871 -/
def setHlineAt (s : Border) (T : MTable) (m : TMem) : Res (MTable × TMem) := do
  let m' ← m.changeRow T.cur fun r => { r with counter := recount r.border s r.counter, border := s }
  pure (T, m')

/-- `set_vline`, table.c:873-892 -/
def setVlineAt (i : Nat) (s : Border) (T : MTable) : Res MTable :=
  if maxCols ≤ i then .defect
  else .ok { T with
    numCols := if T.numCols ≤ i then i + 1 else T.numCols
    colCounter := put T.colCounter i (recount (T.colBorder i) s (T.colCounter i))
    colBorder := put T.colBorder i s }

/-- `make_boxed`, table.c:894-903 -/
def makeBoxedAt (A : TMalloc) (s : Border) (T : MTable) (m : TMem) : Res (MTable × TMem) := do
  let r1 ← setPositionAt A 0 0 T m
  let T1 ← setVlineAt 0 s r1.1
  let r2 ← setHlineAt s T1 r1.2
  let r3 ← setPositionAt A r2.1.numCols (r2.1.numRows - 1) r2.1 r2.2
  let T3 ← setVlineAt r3.1.numCols s r3.1
  setHlineAt s T3 r3.2

/-- `override_left_border`, table.c:905-920 -/
def overrideLeftAt (s : Border) (T : MTable) (m : TMem) : Res (MTable × TMem) :=
  if maxCols ≤ T.curCol then .ub
  else do
    let r ← m.row T.cur
    let m' ← m.changeCell (T.cur, T.curCol) fun c => { c with data := { c.data with left := some s } }
    let n := recount ((r.cells T.curCol).data.left.getD .none) s (T.colCounter T.curCol)
    pure ({ T with colCounter := put T.colCounter T.curCol n }, m')

/-- `override_above_border`, table.c:922-937 -/
def overrideAboveAt (s : Border) (T : MTable) (m : TMem) : Res (MTable × TMem) :=
  if maxCols ≤ T.curCol then .ub
  else do
    let m1 ← m.changeRow T.cur fun r =>
      { r with counter := recount ((r.cells T.curCol).data.above.getD .none) s r.counter }
    let m2 ← m1.changeCell (T.cur, T.curCol) fun c => { c with data := { c.data with above := some s } }
    pure (T, m2)

/-- The inner loop of `set_span`, table.c:961-989, as `spanRow`; `p` points to the spanning cell, `a` to the
current row. -/
def spanRowAt (p : Nat × Nat) (a i : Nat) : (n j : Nat) → TMem → Res (TMem × Bool)
  | 0, _, m => .ok (m, false)
  | n + 1, j, m =>
    if i = 0 ∧ j = 0 then spanRowAt p a i n (j + 1) m
    else do
      let r ← m.row a
      if (r.cells (p.2 + j)).data.isSet then do
        let m' ← m.changeCell p fun c => { c with data := { c.data with spanY := i, spanX := j } }
        pure (m', true)
      else do
        let m' ← m.changeCell (a, p.2 + j) fun c => { c with data := adopt p i j c.data }
        spanRowAt p a i n (j + 1) m'

/-- The outer loop of `set_span`, table.c:958-999, as `spanRows`.  After the last round `row` may be NULL. -/
def spanRowsAt (A : TMalloc) (p : Nat × Nat) (spanX : Nat) : (n i a : Nat) → MTable → TMem → Res (MTable × TMem)
  | 0, _, _, T, m => .ok (T, m)
  | n + 1, i, a, T, m => do
    let q ← spanRowAt p a i spanX 0 m
    if q.2 then pure (T, q.1)
    else if n = 0 then pure (T, q.1)
    else do
      let r ← q.1.row a
      match r.next with
      | none => do
        let b ← appendAt A T q.1
        spanRowsAt A p spanX n (i + 1) b.1 b.2.1 b.2.2
      | some b => spanRowsAt A p spanX n (i + 1) b T q.1

/-- `set_span`, table.c:943-1000 -/
def setSpanAt (A : TMalloc) (spanX spanY : Nat) (T : MTable) (m : TMem) : Res (MTable × TMem) :=
  if spanX = 0 ∨ spanY = 0 ∨ maxCols < T.curCol + spanX then .defect
  else do
    let r ← m.row T.cur
    if (r.cells T.curCol).data.spanX ≠ 1 ∨ (r.cells T.curCol).data.spanY ≠ 1 then .defect
    else do
      let m1 ← m.changeCell (T.cur, T.curCol) fun c => { c with data := { c.data with spanX := spanX, spanY := spanY } }
      spanRowsAt A (T.cur, T.curCol) spanX spanY 0 T.cur { T with numCols := max (T.curCol + spanX) T.numCols } m1

/-- The loop of `set_all_vlines`, table.c:1007-1010. -/
def vlinesAt (s : Border) : (n i : Nat) → MTable → Res MTable
  | 0, _, T => .ok T
  | n + 1, i, T => do
    let T' ← setVlineAt i s T
    vlinesAt s n (i + 1) T'

/-- What a call does; `own` concerns the functions that add a text. -/
def callAt (A : TMalloc) (own : Bool) : Call → MTable → TMem → Res (MTable × TMem)
  | .setPosition x y, T, m => setPositionAt A x y T m
  | .nextRow, T, m => nextRowAt A T m
  | .add s, T, m => addAt A s own T m
  | .setAligns hs vs, T, m =>
    if maxCols < hs.length ∨ maxCols < vs.length then .defect
    else .ok ({ T with hAligns := fun i => hs[i]?.getD (T.hAligns i), vAligns := fun i => vs[i]?.getD (T.vAligns i) }, m)
  | .overrideH a, T, m => onCurrentAt (fun c => { c with hAlign := some a }) T m
  | .overrideV a, T, m => onCurrentAt (fun c => { c with vAlign := some a }) T m
  | .overrideHRow a, T, m => onRowAt (fun c => { c with hAlign := some a }) T m
  | .overrideVRow a, T, m => onRowAt (fun c => { c with vAlign := some a }) T m
  | .setHline s, T, m => setHlineAt s T m
  | .setVline i s, T, m => do
    let T' ← setVlineAt i s T
    pure (T', m)
  | .makeBoxed s, T, m => makeBoxedAt A s T m
  | .setAllVlines s, T, m => do
    let T' ← vlinesAt s (T.numCols - 1) 1 T
    pure (T', m)
  | .overrideLeft s, T, m => overrideLeftAt s T m
  | .overrideAbove s, T, m => overrideAboveAt s T m
  | .setSpan x y, T, m => setSpanAt A x y T m

/-- Several calls. -/
def callsAt (A : TMalloc) : List (Call × Bool) → MTable → TMem → Res (MTable × TMem)
  | [], T, m => .ok (T, m)
  | c :: cs, T, m => do
    let r ← callAt A c.2 c.1 T m
    callsAt A cs r.1 r.2

/-- The first loop of `override_superfluous_lines`, table.c:426-433; there are at most as many rows as blocks. -/
def dropAboveAt : (rounds : Nat) → Option Nat → MTable → TMem → Res (MTable × TMem)
  | _, none, T, m => .ok (T, m)
  | 0, some _, _, _ => .ub
  | n + 1, some p, T, m => do
    let q ← overrideAboveAt .none { T with cur := p } m
    let r ← q.2.row p
    dropAboveAt n r.next q.1 q.2

/-- The last loop of `override_superfluous_lines`, table.c:447-451. -/
def dropLeftAt : (n k : Nat) → MTable → TMem → Res (MTable × TMem)
  | 0, _, T, m => .ok (T, m)
  | n + 1, k, T, m => do
    let q ← overrideLeftAt .none { T with curCol := k } m
    dropLeftAt n (k + 1) q.1 q.2

/-- The second loop of `override_superfluous_lines`, table.c:436-442: on to the last row. -/
def toLastAt (T : MTable) (m : TMem) : Res (MTable × TMem) := do
  let l ← lastRow m m.blocks.length T.first
  pure ({ T with cur := l }, m)

/-- The first part of `override_superfluous_lines`, table.c:424-443. -/
def dropColumnAt (lastWidth : Nat) (T : MTable) (m : TMem) : Res (MTable × TMem) :=
  if lastWidth = 0 then dropAboveAt m.blocks.length (some T.first) { T with curCol := T.numCols - 1 } m else toLastAt T m

/-- `override_superfluous_lines`, table.c:421-453 -/
def dropLinesAt (lastWidth lastHeight : Nat) (T : MTable) (m : TMem) : Res (MTable × TMem) := do
  let q ← dropColumnAt lastWidth T m
  if lastHeight = 0 then dropLeftAt q.1.numCols 0 q.1 q.2 else pure q

/-- What `fprint_table` (table.c:1041-1120) does to the table in memory, if `w` and `h` are the dimensions.  Otherwise it only
reads the table; the arrays it needs meanwhile (586-653, 1049-1119) are not modelled here. -/
def printAt (w h : Nat → Nat) (T : MTable) (m : TMem) : Res (MTable × TMem) :=
  if T.numCols = 0 then .ok (T, m) else dropLinesAt (w (T.numCols - 1)) (h (T.numRows - 1)) T m

/-- The loop of `free_row`, table.c:530-536: `n` cells from column `j` on. -/
def freeTexts (cells : Nat → MCell) : (n j : Nat) → TMem → Res TMem
  | 0, _, m => .ok m
  | n + 1, j, m =>
    if maxCols ≤ j then .ub
    else
      match (cells j).own with
      | none => freeTexts cells n (j + 1) m
      | some p => do
        let m' ← m.free p
        freeTexts cells n (j + 1) m'

/-- `free_row`, table.c:528-538 -/
def freeRow (numCols p : Nat) (m : TMem) : Res TMem := do
  let r ← m.row p
  let m' ← freeTexts r.cells numCols 0 m
  m'.free p

/-- The loop of `free_table`, table.c:687-693; there are at most as many rows as blocks. -/
def freeRows (numCols : Nat) : (rounds : Nat) → Option Nat → TMem → Res TMem
  | _, none, m => .ok m
  | 0, some _, _ => .ub
  | n + 1, some p, m => do
    let r ← m.row p
    let m' ← freeRow numCols p m
    freeRows numCols n r.next m'

/-- `free_table`, table.c:683-695 -/
def freeTable (T : MTable) (m : TMem) : Res TMem := do
  let m' ← freeRows T.numCols m.blocks.length (some T.first) m
  m'.free T.addr

end Verif.Layout
