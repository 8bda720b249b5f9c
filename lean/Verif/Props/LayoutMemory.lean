import Verif.Lemmas.LayoutHeap
import Verif.Model.TableOutput
import Verif.Model.Help

/-!
# C105: tables in memory

The rows of a table are a linked list in memory, and texts made by `add_cell_fmt` or given to `add_cell_gc` belong to the
table.  Whatever is called, the list contains the rows of Model/TableLayout, each at its own address, and
`free_table` frees table, rows and texts once.  That nothing is left afterwards does not hold in general: the text of a
cell that is set once more is not freed (`C105_leak`).  It holds if `set_position` is not called (`C105_partial`),
which no client does (`C105_client`).
-/

namespace Verif.LayoutMemoryProps
open Verif Layout LayoutSpec
variable {V : Type}

/-- An allocator: the address after the greatest one in use. -/
def after : TMalloc where
  pick blocks := (blocks.map (·.1)).foldr max 0 + 1
  fresh blocks b hb e := by
    have : b.1 ≤ (blocks.map (·.1)).foldr max 0 := by
      clear e
      induction blocks with
      | nil => cases hb
      | cons x xs ih =>
        rcases List.mem_cons.1 hb with rfl | h
        · exact Nat.le_max_left ..
        · exact Nat.le_trans (ih h) (Nat.le_max_right ..)
    omega

/-- The addresses in use after a table was made, filled, and freed, beginning with a text at 7. -/
def remaining (cs : List (Call × Bool)) : Option (List Nat) :=
  let e := emptyAt after ⟨[(7, .text)]⟩
  match callsAt after cs e.1 e.2 with
  | .ok (T, m) =>
    match printAt (fun _ => 0) (fun _ => 0) T m with
    | .ok (T', m') =>
      match freeTable T' m' with
      | .ok m'' => some (m''.blocks.map (·.1))
      | _ => none
    | _ => none
  | _ => none

/-- Filling a table: if the calls succeed with values, they succeed in memory, and there is the same table in memory,
apart from everything that was there before.  `cs` says for every text whether it belongs to the table. -/
theorem C105_refines (A : TMalloc) (m : TMem) (cs : List (Call × Bool)) {t : Table} (h : calls (cs.map (·.1)) empty = .ok t) :
    ∃ T m' lost, callsAt A cs (emptyAt A m).1 (emptyAt A m).2 = .ok (T, m') ∧ TableIn m.get T m' t lost := by
  obtain ⟨T, m', more, e1, -, e3, -⟩ := callsAt_spec A cs (emptyAt_spec A m) h
  exact ⟨T, m', _, e1, e3⟩

/-- Calls that fail do so in memory in the same way: a false assertion of the module remains one, and apart from what is
undefined with values nothing is undefined in memory. -/
theorem C105_fails (A : TMalloc) (m : TMem) (cs : List (Call × Bool)) :
    (calls (cs.map (·.1)) empty = .defect ↔ callsAt A cs (emptyAt A m).1 (emptyAt A m).2 = .defect) ∧
    (calls (cs.map (·.1)) empty = .ub ↔ callsAt A cs (emptyAt A m).1 (emptyAt A m).2 = .ub) := by
  cases h : calls (cs.map (·.1)) empty with
  | ok t =>
    obtain ⟨T, m', lost, e, -⟩ := C105_refines A m cs h
    rw [e]
    exact ⟨⟨fun x => (by cases x), fun x => (by cases x)⟩, ⟨fun x => (by cases x), fun x => (by cases x)⟩⟩
  | defect =>
    rcases callsAt_fails A cs (emptyAt_spec A m) (fun t' e => by rw [h] at e; cases e) with ⟨-, e⟩ | ⟨e, -⟩
    · rw [e]; simp
    · rw [h] at e; cases e
  | ub =>
    rcases callsAt_fails A cs (emptyAt_spec A m) (fun t' e => by rw [h] at e; cases e) with ⟨e, -⟩ | ⟨-, e⟩
    · rw [h] at e; cases e
    · rw [e]; simp

/-- More columns than there are: the texts fill a row, the next one is written outside of it; a box around them does not
fit. -/
example : calls ((List.replicate (maxCols + 1) (.add none))) empty = .ub ∧
    calls ((List.replicate maxCols (.add none)) ++ [.makeBoxed .single]) empty = .defect := by
  constructor <;> rfl

/-- Printing leaves the table in memory that `print` leaves with values. -/
theorem C105_print {base : Nat → Option Block} {T : MTable} {m : TMem} {t t' : Table} {lost : List Nat} {ls : List Str}
    (h : TableIn base T m t lost) (h0 : t.numCols ≠ 0) (hp : print t = .ok (ls, t')) :
    ∃ u v T' m', dimensions t = .ok (u, v) ∧ printAt u v T m = .ok (T', m') ∧ TableIn base T' m' t' lost := by
  unfold print at hp
  rw [if_neg h0] at hp
  obtain ⟨⟨u, v⟩, e1, hp⟩ := Out.bind_eq_ok.1 hp
  obtain ⟨t1, e2, hp⟩ := Out.bind_eq_ok.1 hp
  obtain ⟨ls', e3, hp⟩ := Out.bind_eq_ok.1 hp
  cases hp
  have d : dimensions t = .ok (u, v) := by
    cases hd : dimensions t <;> rw [hd] at e1 <;> cases e1
    rfl
  have l : dropLines (u (t.numCols - 1)) (v (t.numRows - 1)) t = .ok t' := by
    cases hd : dropLines (u (t.numCols - 1)) (v (t.numRows - 1)) t <;> simp only [hd] at e2 <;> cases e2
    rfl
  obtain ⟨T', m', f1, -, f3⟩ := dropLines_spec h l
  obtain ⟨as, own, hs, -⟩ := h
  exact ⟨u, v, T', m', d, by rw [printAt, hs.numCols, hs.numRows, if_neg h0]; exact f1, f3⟩

/-- From `get_empty_table` over any calls and printing to `free_table`: only rows that are there are read and written,
nothing is freed twice, and afterwards the memory is as before, with the texts in `lost` that were replaced. There are
none if no text was put into a cell that was set. -/
theorem C105_free (A : TMalloc) (m : TMem) (cs : List (Call × Bool)) {t : Table} (h : calls (cs.map (·.1)) empty = .ok t) (u v : Nat → Nat) :
    ∃ T1 m1 T2 m2 m3 lost, callsAt A cs (emptyAt A m).1 (emptyAt A m).2 = .ok (T1, m1) ∧ printAt u v T1 m1 = .ok (T2, m2) ∧
      freeTable T2 m2 = .ok m3 ∧ (∀ q, m3.get q = if q ∈ lost then some .text else m.get q) ∧
      (Careful (cs.map (·.1)) empty → lost = []) := by
  obtain ⟨T, m1, more, e1, -, e3, e4⟩ := callsAt_spec A cs (emptyAt_spec A m) h
  obtain ⟨T2, m2, t2, f1, -, f3, f4⟩ := printAt_spec e3 (Inside.empty.calls h) u v
  obtain ⟨m3, g1, g2⟩ := freeTable_spec f3 f4
  exact ⟨T, m1, T2, m2, m3, _, e1, f1, g1, g2, fun hc => by rw [e4 hc]; rfl⟩

/-- Without `set_position` the memory is as before.  Missing in the full statement: tables in which it is called. -/
theorem C105_partial (A : TMalloc) (m : TMem) (cs : List (Call × Bool)) {t : Table} (h : calls (cs.map (·.1)) empty = .ok t)
    (ho : Onward (cs.map (·.1))) (u v : Nat → Nat) :
    ∃ T1 m1 T2 m2 m3, callsAt A cs (emptyAt A m).1 (emptyAt A m).2 = .ok (T1, m1) ∧ printAt u v T1 m1 = .ok (T2, m2) ∧
      freeTable T2 m2 = .ok m3 ∧ m3.get = m.get := by
  obtain ⟨T1, m1, T2, m2, m3, lost, e1, e2, e3, e4, e5⟩ := C105_free A m cs h u v
  refine ⟨T1, m1, T2, m2, m3, e1, e2, e3, funext fun q => ?_⟩
  rw [e4, e5 (careful_of_onward ho), if_neg (List.not_mem_nil)]

/-- Two columns, a span over two rows, lines, a box: table, rows and texts of the table are freed. -/
def spans : List (Call × Bool) :=
  [(.setAligns [.right] [], false), (.setSpan 1 2, false), (.add (some "a".toList), true), (.add (some "b".toList), false),
    (.overrideAbove .single, false), (.nextRow, false), (.add (some "c\nd".toList), true), (.nextRow, false), (.add none, false),
    (.setSpan 2 1, false), (.setVline 1 .single, false), (.makeBoxed .double, false)]

example : remaining spans = some [7] := by decide +kernel

example : Onward (spans.map (·.1)) := fun c hc x y e => by
  subst e
  simp [spans] at hc

example : (match calls (spans.map (·.1)) empty with | .ok t => some (t.numRows, t.numCols, t.curRow) | _ => none) = some (3, 4, 2) := by
  decide +kernel

/-- The full statement is false: a text of the table that is replaced is still there after `free_table`
(table.c:455-460). -/
theorem C105_leak : remaining [(.add (some "a".toList), true), (.setPosition 0 0, false), (.add (some "b".toList), true)] = some [10, 7] := by
  decide +kernel

/-- The same with a cell of another position: nothing is lost, although `set_position` was called. -/
example : remaining [(.setPosition 1 2, false), (.add (some "a".toList), true), (.setPosition 0 0, false), (.add (some "b".toList), true)]
    = some [7] := by decide +kernel

/-! ## The clients -/

/-- Calls that add a text, go to the next row or concern alignments. -/
def Plainly : Call → Bool
  | .add _ | .nextRow | .setAligns _ _ | .overrideH _ | .overrideHRow _ => true
  | _ => false

theorem onward_of_plainly {cs : List Call} (h : ∀ c ∈ cs, Plainly c = true) : Onward cs := fun c hc x y e => by
  have := h c hc
  rw [e] at this
  cases this

theorem array_plainly (rows : List (List (Option Str))) : ∀ c ∈ Help.arrayCalls rows, Plainly c = true := fun c hc => by
  simp only [Help.arrayCalls, List.mem_flatMap, List.mem_append, List.mem_map, List.mem_singleton] at hc
  obtain ⟨r, -, ⟨s, -, rfl⟩ | rfl⟩ := hc <;> rfl

theorem function_plainly (fmt : V → Str) : ∀ (rs : List (RewriteRule V)) {cs : List Call}, Help.functionCalls fmt rs = .ok cs →
    ∀ c ∈ cs, Plainly c = true
  | [], cs, h => by cases h; simp
  | r :: rs, cs, h => by
    obtain ⟨a, -, h⟩ := Res.bind_eq_ok.1 h
    obtain ⟨b, -, h⟩ := Res.bind_eq_ok.1 h
    obtain ⟨cs', h1, h⟩ := Res.bind_eq_ok.1 h
    cases h
    have := function_plainly fmt rs h1
    simpa [Plainly] using this

theorem op_plainly (fmt : V → Str) (c : Help.Columns) (o : Op) (d : Str) (v : Except EvalErr V) {cs : List Call}
    (h : Help.opRow fmt c o d v = .ok cs) : ∀ c ∈ cs, Plainly c = true := by
  unfold Help.opRow at h
  intro x hx
  by_cases hv : c.value = true
  · rw [if_pos hv] at h
    obtain ⟨l, hl, h⟩ := Res.bind_eq_ok.1 h
    cases h
    simp only [List.mem_append, List.mem_cons, List.not_mem_nil, or_false] at hx
    rcases hx with ((((rfl | hx) | hx) | hx) | rfl | rfl) | rfl | rfl <;> first | rfl | (split at hx <;> simp at hx; subst hx; rfl)
  · rw [if_neg hv] at h
    cases h
    simp only [List.mem_append, List.mem_cons, List.not_mem_nil, or_false] at hx
    rcases hx with (((rfl | hx) | hx) | hx) | rfl | rfl <;> first | rfl | (split at hx <;> simp at hx; subst hx; rfl)

theorem heading_plainly (c : Help.Columns) : ∀ x ∈ Help.heading c, Plainly x = true := by
  obtain ⟨p, a, b, d, e⟩ := c
  cases a <;> cases b <;> cases d <;> cases e <;> simp [Help.heading, Plainly]

theorem ops_plainly (fmt : V → Str) (eval : Op → Except EvalErr V) (c : Help.Columns) : ∀ (os : List Op) (ds : List Str) {cs : List Call},
    Help.opRows fmt eval c os ds = .ok cs → ∀ x ∈ cs, Plainly x = true
  | [], _, cs, h => by cases h; simp
  | _ :: _, [], cs, h => by cases h; simp
  | o :: os, d :: ds, cs, h => by
    unfold Help.opRows at h
    intro x hx
    by_cases hl : Help.listed c o = true
    · rw [if_pos hl] at h
      obtain ⟨r, h1, h⟩ := Res.bind_eq_ok.1 h
      obtain ⟨rs, h2, h⟩ := Res.bind_eq_ok.1 h
      cases h
      rcases List.mem_append.1 hx with hx | hx
      · exact op_plainly fmt c o d _ h1 x hx
      · exact ops_plainly fmt eval c os ds h2 x hx
    · rw [if_neg hl] at h
      obtain ⟨r, h1, h⟩ := Res.bind_eq_ok.1 h
      cases h1
      obtain ⟨rs, h2, h⟩ := Res.bind_eq_ok.1 h
      cases h
      exact ops_plainly fmt eval c os ds h2 x (by simpa using hx)

theorem cells_plainly (b : Bool) (fixed : V → Str) : ∀ (i : Nat) (rows : List (TableRow V)), ∀ c ∈ allCells b fixed i rows, Plainly c = true
  | _, [] => by simp [allCells]
  | i, row :: rows => by
    intro c hc
    rw [allCells, List.mem_append] at hc
    rcases hc with hc | hc
    · cases b <;> cases hv : row.value <;> simp [rowCells, hv] at hc <;> rcases hc with rfl | rfl | rfl | rfl <;> rfl
    · exact cells_plainly b fixed (i + 1) rows c hc

theorem header_plainly (b : Bool) (var : Option Str) (title : Str) : ∀ c ∈ headerCalls b var title, Plainly c = true := by
  cases b <;> cases var <;> simp [headerCalls, Plainly]

/-- The tables of the clients never go back: those of operators, of functions, of commands and that of the table command.
So `C105_partial` is about them. -/
theorem C105_client (fmt fixed : V → Str) :
    (∀ rows, Onward (Help.arrayCalls rows)) ∧
    (∀ rs cs, Help.functionCalls fmt rs = .ok cs → Onward cs) ∧
    (∀ eval c os ds cs, Help.opRows fmt eval c os ds = .ok cs → Onward (Help.heading c ++ cs)) ∧
    (∀ b var title i rows, Onward (headerCalls b var title ++ allCells b fixed i rows ++ [.setAligns [.right, .right, .right] []])) := by
  refine ⟨fun rows => onward_of_plainly (array_plainly rows), fun rs cs h => onward_of_plainly (function_plainly fmt rs h),
    fun eval c os ds cs h => onward_of_plainly fun x hx => ?_, fun b var title i rows => onward_of_plainly fun x hx => ?_⟩
  · rcases List.mem_append.1 hx with hx | hx
    · exact heading_plainly c x hx
    · exact ops_plainly fmt eval c os ds h x hx
  · rcases List.mem_append.1 hx with hx | hx
    · rcases List.mem_append.1 hx with hx | hx
      · exact header_plainly b var title x hx
      · exact cells_plainly b fixed i rows x hx
    · rw [List.mem_singleton] at hx
      subst hx
      rfl

end Verif.LayoutMemoryProps
