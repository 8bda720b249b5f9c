import Verif.Model.LayoutHeap

/-!
# Tables in memory: what is to be there

`as` are the addresses of the rows, `own` those of the texts that belong to cells, `lost` those of texts that belonged
to a cell whose text was replaced.
-/

namespace Verif.LayoutSpec
open Layout

/-- A cell with the address of its parent's row. -/
def rehome (as : List Nat) (c : Cell) : Cell := { c with parent := c.parent.map fun p => (as[p.1]?.getD 0, p.2) }

/-- The rows of `t` are in memory, each leading to the next. -/
structure RowsAt (m : TMem) (t : Table) (as : List Nat) (own : Nat × Nat → Option Nat) : Prop where
  len : as.length = t.numRows
  row : ∀ i a, as[i]? = some a → ∃ r, m.get a = some (.row r) ∧ r.next = as[i + 1]? ∧ r.border = t.rowBorder i ∧
    r.counter = t.rowCounter i ∧ ∀ j < maxCols, r.cells j = ⟨rehome as (t.cell (i, j)), own (i, j)⟩
  kin : ∀ i j p, i < t.numRows → j < maxCols → (t.cell (i, j)).parent = some p → p.1 < t.numRows
  mine : ∀ i j q, own (i, j) = some q → i < t.numRows ∧ j < maxCols ∧ (t.cell (i, j)).isSet = true

/-- The memory is `base` with a table, rows and texts, no two at the same address. -/
structure Apart (base : Nat → Option Block) (addr : Nat) (m : TMem) (as : List Nat) (own : Nat × Nat → Option Nat)
    (lost : List Nat) : Prop where
  table : m.get addr = some .table
  new : base addr = none
  nodup : as.Nodup
  rows : ∀ a ∈ as, base a = none ∧ ∃ r, m.get a = some (.row r)
  text : ∀ x q, own x = some q → m.get q = some .text ∧ base q = none
  inj : ∀ x y q, own x = some q → own y = some q → x = y
  gone : ∀ q ∈ lost, m.get q = some .text ∧ base q = none ∧ ∀ x, own x ≠ some q
  other : ∀ q, q ≠ addr → q ∉ as → (∀ x, own x ≠ some q) → q ∉ lost → m.get q = base q

/-- The components of the table. -/
structure SameTable (T : MTable) (t : Table) (as : List Nat) : Prop where
  first : as[0]? = some T.first
  cur : as[t.curRow]? = some T.cur
  curCol : T.curCol = t.curCol
  numCols : T.numCols = t.numCols
  numRows : T.numRows = t.numRows
  colBorder : T.colBorder = t.colBorder
  colCounter : T.colCounter = t.colCounter
  hAligns : T.hAligns = t.hAligns
  vAligns : T.vAligns = t.vAligns

/-- The memory is `base` with the table `t` and the texts that are lost. -/
def TableIn (base : Nat → Option Block) (T : MTable) (m : TMem) (t : Table) (lost : List Nat) : Prop :=
  ∃ as own, SameTable T t as ∧ RowsAt m t as own ∧ Apart base T.addr m as own lost

/-- No text is put into a cell that is set. -/
def Careful : List Call → Table → Prop
  | [], _ => True
  | c :: cs, t => (∀ s, c = .add s → t.curCol < maxCols → (t.cell (t.curRow, t.curCol)).isSet = false) ∧
      ∀ t', call c t = .ok t' → Careful cs t'

/-- `set_position` is not called. -/
def Onward (cs : List Call) : Prop := ∀ c ∈ cs, ∀ x y, c ≠ .setPosition x y

end Verif.LayoutSpec
