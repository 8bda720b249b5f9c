import Verif.Lemmas.LayoutBox
import Verif.Lemmas.KernelRfl
import Verif.Lemmas.LayoutMarked

/-!
# Properties of the layout of tables (C45, C54, C69, C70, C71, C72, C73, C74)
-/

namespace Verif.LayoutProps
open Layout LayoutSpec TextSpec

/-! ### Runs of concrete tables -/

/-- The widths of the printed lines, or why there are none; `none` if a call fails already. -/
def seen (cs : List Call) : Option (Out (List Nat)) :=
  match calls cs empty with
  | .ok t => some (match print t with
    | .ok (ls, _) => .ok (ls.map columns)
    | .hang => .hang
    | .defect => .defect
    | .ub => .ub)
  | _ => none

theorem seen_ok {cs ws} (h : seen cs = some (.ok ws)) :
    ∃ t ls t', calls cs empty = .ok t ∧ print t = .ok (ls, t') ∧ ls.map columns = ws := by
  simp only [seen] at h
  split at h
  · rename_i t ht
    simp only [Option.some.injEq] at h
    split at h
    · rename_i ls t' hp
      cases h
      exact ⟨t, ls, t', ht, hp, rfl⟩
    all_goals cases h
  · cases h

theorem seen_hang {cs} (h : seen cs = some .hang) : ∃ t, calls cs empty = .ok t ∧ print t = .hang := by
  simp only [seen] at h
  split at h
  · rename_i t ht
    simp only [Option.some.injEq] at h
    split at h
    · cases h
    · rename_i hp
      exact ⟨t, ht, hp⟩
    all_goals cases h
  · cases h

theorem seen_ub {cs} (h : seen cs = some .ub) : ∃ t, calls cs empty = .ok t ∧ print t = .ub := by
  simp only [seen] at h
  split at h
  · rename_i t ht
    simp only [Option.some.injEq] at h
    split at h
    · cases h
    · cases h
    · cases h
    · rename_i hp
      exact ⟨t, ht, hp⟩
  · cases h

/-- A text. -/
def txt (s : String) : Option Str := some s.toList

theorem char_tidy {s : Str} (h : ∀ c ∈ s, c ≠ Char.ofNat 27 ∧ c ≠ '\n' ∧ c.toNat < 128) : TidyLine true s := by
  induction s with
  | nil => exact .nil
  | cons c s ih =>
    obtain ⟨h1, h2, h3⟩ := h c List.mem_cons_self
    exact .char h1 h2 h3 (ih fun c hc => h c (List.mem_cons_of_mem _ hc))

/-- Texts without escape sequences. -/
theorem tidy_of {s : Str} (h1 : s.head? ≠ some '\n') (h : ∀ c ∈ s, c ≠ Char.ofNat 27 ∧ c.toNat < 128) : Tidy (some s) := by
  refine ⟨h1, fun ls hls l hl => ?_⟩
  have key : ∀ {s ls}, Lines s ls → (∀ c ∈ s, c ≠ Char.ofNat 27 ∧ c.toNat < 128) → ∀ l ∈ ls, TidyLine true l := by
    intro s ls hls
    induction hls with
    | @last s hn =>
      intro h l hl
      rw [List.mem_singleton.1 hl]
      exact char_tidy fun c hc => ⟨(h c hc).1, fun e => hn (e ▸ hc), (h c hc).2⟩
    | @more a b ls ha _ ih =>
      intro h l hl
      rcases List.mem_cons.1 hl with rfl | hl
      · exact char_tidy fun c hc => ⟨(h c (by simp [hc])).1, fun e => ha (e ▸ hc), (h c (by simp [hc])).2⟩
      · exact ih (fun c hc => h c (by simp [hc])) l hl
  exact key hls h l hl

/-! ## C45: widths and heights -/

/-- Whatever is called: the dimensions of a table are found, and every cell with a proper span gets the room it
needs. -/
theorem C45_partial {cs : List Call} {t : Table} (h : calls cs empty = .ok t) : ∃ w h, dimensions t = .ok (w, h) ∧
    ∀ p, p.1 < t.numRows → p.2 < t.numCols → (t.cell p).isSet = true → (t.cell p).parent = none →
      ((t.cell p).spanX ≠ 0 → (t.cell p).width ≤ room w t.colCounter p.2 (t.cell p).spanX) ∧
      ((t.cell p).spanY ≠ 0 → (t.cell p).height ≤ room h t.rowCounter p.1 (t.cell p).spanY) :=
  dimensions_ok (Inside.empty.calls h)

/-- Made properly, every line of every text fits into the columns of its cell, and all lines fit into its rows. -/
theorem C45_made {t : Table} (hm : Made t) : ∃ w h, dimensions t = .ok (w, h) ∧
    ∀ p, p.1 < t.numRows → p.2 < t.numCols → (t.cell p).parent = none → ∀ s, (t.cell p).text = some s → ∀ ls, Lines s ls →
      (∀ l ∈ ls, columns l ≤ room w t.colCounter p.2 (t.cell p).spanX) ∧
      ls.length ≤ room h t.rowCounter p.1 (t.cell p).spanY := by
  obtain ⟨hi, hg, ht⟩ := hm.all
  obtain ⟨w, h, hd, hfit⟩ := dimensions_ok hi
  refine ⟨w, h, hd, fun p h1 h2 hp s hs ls hls => ?_⟩
  obtain ⟨x1, x2, x3, x4⟩ := ht p
  have hset : (t.cell p).isSet = true := by
    cases e : (t.cell p).isSet with
    | true => rfl
    | false => rw [x4 e] at hs; cases hs
  have hc := hi.cols
  obtain ⟨_, o2, _, o4, _⟩ := hg.own p.1 p.2 h1 (by omega)
  have ho : owner t (p.1, p.2) = p := by
    show (t.cell p).parent.getD p = p
    rw [hp]; rfl
  rw [ho] at o2 o4
  obtain ⟨f1, f2⟩ := hfit p h1 h2 hset hp
  constructor
  · intro l hl
    obtain ⟨w', e, hw', _⟩ := textWidth_tidy x1
    rw [x3] at e
    have e := Res.ok.inj e
    exact Nat.le_trans ((hw' s hs).1 ls hls l hl) (e ▸ f1 (by omega))
  · have : ls.length = (t.cell p).height := by
      rw [x2, hs, Lines.unique hls (linesOf_lines s), linesOf_length]
      rfl
    rw [this]
    exact f2 (by omega)

/-- Without spans no column is wider and no row is higher than its cells need. -/
theorem C45_tight {cs : List Call} {t : Table} (hc : ∀ c ∈ cs, Spanless c) (h : calls cs empty = .ok t) :
    ∃ w h, dimensions t = .ok (w, h) ∧
      (∀ p, p.1 < t.numRows → p.2 < t.numCols → (t.cell p).isSet = true → (t.cell p).width ≤ w p.2 ∧ (t.cell p).height ≤ h p.1) ∧
      (∀ k, w k = 0 ∨ ∃ r, r < t.numRows ∧ k < t.numCols ∧ (t.cell (r, k)).isSet = true ∧ (t.cell (r, k)).width = w k) ∧
      (∀ r, h r = 0 ∨ ∃ k, r < t.numRows ∧ k < t.numCols ∧ (t.cell (r, k)).isSet = true ∧ (t.cell (r, k)).height = h r) :=
  dimensions_tight (Inside.empty.calls h) (calls_single hc empty_single h)

/-- A span of two rows and columns that is cut, since the cell to the right of it is set already.  No row is left for
it. -/
def cut : List Call := [.setPosition 1 0, .add (txt "x"), .setPosition 0 0, .setSpan 2 2, .add (txt "y\ny\ny")]

/-- The height of a cell, and the room for it. -/
def heightAt (cs : List Call) (p : Nat × Nat) : Option (Bool × Option (Nat × Nat) × Nat × Nat) :=
  match calls cs empty with
  | .ok t => match dimensions t with
    | .ok (_, h) => some ((t.cell p).isSet, (t.cell p).parent, (t.cell p).height, room h t.rowCounter p.1 (t.cell p).spanY)
    | _ => none
  | _ => none

/-- C45 fails: a text of three lines has room for none. -/
theorem C45_cut : heightAt cut (0, 0) = some (true, none, 3, 0) := by decide +kernel

/-- What is printed is only one line of it. -/
theorem C45_cut_seen : seen cut = some (.ok [2]) := by kernel_rfl

/-! ### Checking the hypotheses -/

/-- Decides whether a call is proper, for texts without escape sequences. -/
def properCall (t : Table) : Call → Bool
  | .add none => true
  | .add (some s) => s.head? != some '\n' && s.all fun c => c != Char.ofNat 27 && decide (c.toNat < 128)
  | .setSpan sx sy => (t.cell (t.curRow, t.curCol)).parent == none &&
      (List.range sy).all fun i => (List.range sx).all fun j => decide ((i, j) = (0, 0)) || decide (t.numRows ≤ t.curRow + i) ||
        (let c := t.cell (t.curRow + i, t.curCol + j)
         !c.isSet && c.parent == none && c.spanX == 1 && c.spanY == 1)
  | _ => true

theorem properCall_sound {t c} (h : properCall t c = true) : Proper t c := by
  cases c with
  | add s =>
    cases s with
    | none => trivial
    | some s =>
      simp only [properCall, Bool.and_eq_true, bne_iff_ne, List.all_eq_true, decide_eq_true_eq] at h
      exact tidy_of h.1 h.2
  | setSpan sx sy =>
    simp only [properCall, Bool.and_eq_true, beq_iff_eq, List.all_eq_true, List.mem_range, Bool.or_eq_true, decide_eq_true_eq,
      Bool.not_eq_true'] at h
    refine ⟨h.1, fun i j hi hj hij hr => ?_⟩
    rcases h.2 i hi j hj with (h | h) | h
    · exact absurd h hij
    · omega
    · exact ⟨h.1.1.1, h.1.1.2, h.1.2, h.2⟩
  | _ => trivial

/-- Proper calls one after another. -/
def build : List Call → Table → Option Table
  | [], t => some t
  | c :: cs, t => if properCall t c then match call c t with
      | .ok t' => build cs t'
      | _ => none
    else none

theorem build_made {cs t t'} (hm : Made t) (h : build cs t = some t') : calls cs t = .ok t' ∧ Made t' := by
  induction cs generalizing t with
  | nil => cases h; exact ⟨rfl, hm⟩
  | cons c cs ih =>
    rw [build] at h
    split at h
    · rename_i hp
      split at h
      · rename_i t1 h1
        obtain ⟨e, m⟩ := ih (.call hm (properCall_sound hp) h1) h
        exact ⟨by rw [calls, h1, Res.bind_ok, e], m⟩
      · cases h
    · cases h

/-- A table with lines and a span. -/
def sample : List Call :=
  [.setVline 0 .single, .setHline .double, .setSpan 2 2, .add (txt "wide cell"), .add (txt "f"), .nextRow, .setHline .single,
    .add (txt "g\nh"), .nextRow, .add (txt "x"), .add (txt "y"), .add (txt "zz\nz"), .nextRow, .makeBoxed .single]

example : (build sample empty).isSome = true := by decide +kernel

/-! ## C54: lines of the same width -/

/-- Tables that are made properly are printed, and all lines have the same width, if lines on the left and on
the right of the second column of every span agree, no span reaches the last possible column, and no cell of the last
row asks for a line of its own. -/
theorem C54_partial {t : Table} (h : Made t) (h0 : t.numCols ≠ 0)
    (ha : ∀ p, p.1 < t.numRows → p.2 < t.numCols → (t.cell p).parent = none → 1 < (t.cell p).spanX →
      p.2 + (t.cell p).spanX < maxCols ∧ (0 < t.colCounter (p.2 + 1) ↔ 0 < t.colCounter (p.2 + (t.cell p).spanX)))
    (hl : ∀ k, k < t.numCols → (t.cell (t.numRows - 1, k)).left.getD .none = .none) :
    ∃ w h ls t', dimensions t = .ok (w, h) ∧ print t = .ok (ls, t') ∧
      ls.length = ∑ i ∈ Finset.range t.numRows, (bit t'.rowCounter i + h i) ∧
      ∀ l ∈ ls, '\n' ∉ l ∧ columns l = lineWidth w t.colCounter t.numCols := by
  obtain ⟨w, h, ls, t', e1, e2, e3, e4⟩ := print_ok h h0 ha hl
  exact ⟨w, h, ls, t', e1, e2, e3, fun l hl => ⟨(e4 l hl).1, (e4 l hl).columns⟩⟩

/-- Whether the hypotheses hold. -/
def regular (cs : List Call) : Bool :=
  match build cs empty with
  | some t => t.numCols != 0 && ((List.range t.numRows).all fun r => (List.range t.numCols).all fun k =>
      let c := t.cell (r, k)
      c.parent != none || decide (c.spanX ≤ 1) || (decide (k + c.spanX < maxCols) &&
        decide (0 < t.colCounter (k + 1)) == decide (0 < t.colCounter (k + c.spanX)))) &&
      (List.range t.numCols).all fun k => decide ((t.cell (t.numRows - 1, k)).left.getD .none = .none)
  | none => false

theorem regular_sound {cs} (h : regular cs = true) : ∃ t, calls cs empty = .ok t ∧ Made t ∧ t.numCols ≠ 0 ∧
    (∀ p, p.1 < t.numRows → p.2 < t.numCols → (t.cell p).parent = none → 1 < (t.cell p).spanX →
      p.2 + (t.cell p).spanX < maxCols ∧ (0 < t.colCounter (p.2 + 1) ↔ 0 < t.colCounter (p.2 + (t.cell p).spanX))) ∧
    ∀ k, k < t.numCols → (t.cell (t.numRows - 1, k)).left.getD .none = .none := by
  rw [regular] at h
  split at h
  · rename_i t ht
    obtain ⟨h1, h2⟩ := build_made .empty ht
    simp only [Bool.and_eq_true, bne_iff_ne, List.all_eq_true, List.mem_range, Bool.or_eq_true, decide_eq_true_eq, beq_iff_eq,
      decide_eq_decide] at h
    refine ⟨t, h1, h2, h.1.1, fun p q1 q2 q3 q4 => ?_, h.2⟩
    rcases h.1.2 p.1 q1 p.2 q2 with (h | h) | h
    · exact absurd q3 h
    · exact absurd q4 (by simpa using h)
    · exact h
  · cases h

example : regular sample = true := by decide +kernel
example : seen sample = some (.ok [13, 13, 13, 13, 13, 13, 13, 13]) := by kernel_rfl

/-- Without spans, all tables are printed with lines of the same width. -/
theorem C54_plain {cs : List Call} {t : Table} (hc : ∀ c ∈ cs, Spanless c ∧ TidyCall c) (h : calls cs empty = .ok t)
    (hs : ∀ p, (t.cell p).height ≤ 2 ^ 31) :
    ∃ ls t' n, print t = .ok (ls, t') ∧ ∀ l ∈ ls, '\n' ∉ l ∧ columns l = n := by
  by_cases h0 : t.numCols = 0
  · exact ⟨[], t, 0, by rw [print, if_pos h0], by simp⟩
  obtain ⟨w, h, t', _, e, hw⟩ := grid_ok hc h h0 hs
  exact ⟨_, t', _, e, fun l hl => ⟨(hw l hl).1, (hw l hl).columns⟩⟩

/-- A table in a box. -/
def boxed : List Call :=
  [.add (txt "ab\ncde"), .add (txt "f"), .nextRow, .setHline .single, .add (txt "x"), .overrideH .center, .add (txt "yyyy"), .nextRow,
    .setAllVlines .double, .makeBoxed .single]

example : ∀ c ∈ boxed, Spanless c ∧ TidyCall c := by
  have h : ∀ c ∈ boxed, Spanless c := by
    intro c hc
    simp only [boxed, List.mem_cons, List.not_mem_nil, or_false] at hc
    rcases hc with rfl | rfl | rfl | rfl | rfl | rfl | rfl | rfl | rfl | rfl <;> trivial
  refine fun c hc => ⟨h c hc, ?_⟩
  simp only [boxed, List.mem_cons, List.not_mem_nil, or_false] at hc
  rcases hc with rfl | rfl | rfl | rfl | rfl | rfl | rfl | rfl | rfl | rfl
  any_goals trivial
  all_goals exact tidy_of (by decide) (by decide)

example : seen boxed = some (.ok [10, 10, 10, 10, 10, 10]) := by kernel_rfl

/-- C54 fails: next to a line, a span is wider than the cells below it. -/
theorem C54_span : ∃ cs t ls t', calls cs empty = .ok t ∧ Made t ∧ print t = .ok (ls, t') ∧ ls.map columns = [7, 6] := by
  let cs : List Call := [.setSpan 2 1, .add (txt "abcd"), .setVline 2 .single, .add (txt "c"), .nextRow, .add (txt "x"),
    .add (txt "y"), .add (txt "z")]
  have h : seen cs = some (.ok [7, 6]) := by kernel_rfl
  have hb : (build cs empty).isSome = true := by decide +kernel
  obtain ⟨t, ht⟩ := Option.isSome_iff_exists.1 hb
  obtain ⟨e, m⟩ := build_made .empty ht
  obtain ⟨t1, ls, t', h1, h2, h3⟩ := seen_ok h
  rw [e] at h1
  cases h1
  exact ⟨cs, t, ls, t', e, m, h2, h3⟩

/-- A line that is removed in the end, since the row below it is empty, was counted for the width of a span. -/
theorem C54_superfluous : ∃ cs t ls t', calls cs empty = .ok t ∧ Made t ∧ print t = .ok (ls, t') ∧ ls.map columns = [5, 4] := by
  let cs : List Call := [.setSpan 2 1, .add (txt "abc"), .add (txt "z"), .nextRow, .add (txt "x"), .add (txt "y"), .add (txt "z"),
    .nextRow, .setVline 2 .single, .setPosition 1 2, .overrideLeft .single]
  have h : seen cs = some (.ok [5, 4]) := by kernel_rfl
  have hb : (build cs empty).isSome = true := by decide +kernel
  obtain ⟨t, ht⟩ := Option.isSome_iff_exists.1 hb
  obtain ⟨e, m⟩ := build_made .empty ht
  obtain ⟨t1, ls, t', h1, h2, h3⟩ := seen_ok h
  rw [e] at h1
  cases h1
  exact ⟨cs, t, ls, t', e, m, h2, h3⟩

/-- Two escape sequences one after another are taken for visible text. -/
theorem C54_escape : ∃ cs t ls t', calls cs empty = .ok t ∧ print t = .ok (ls, t') ∧ ls.map columns = [7, 11] := by
  have h : seen [.add (some ['a', Char.ofNat 27, '[', '1', 'm', Char.ofNat 27, '[', '2', 'm', 'b']), .nextRow,
    .add (txt "abcdefghijk")] = some (.ok [7, 11]) := by kernel_rfl
  obtain ⟨t, ls, t', h1, h2, h3⟩ := seen_ok h
  exact ⟨_, t, ls, t', h1, h2, h3⟩

/-- Characters of several bytes (here the degree sign) are taken for several columns. -/
theorem C54_utf8 : ∃ cs t ls t', calls cs empty = .ok t ∧ print t = .ok (ls, t') ∧ ls.map columns = [2, 3] := by
  have h : seen [.add (some ['a', Char.ofNat 0xC2, Char.ofNat 0xB0]), .nextRow, .add (txt "abc")] = some (.ok [2, 3]) := by kernel_rfl
  obtain ⟨t, ls, t', h1, h2, h3⟩ := seen_ok h
  exact ⟨_, t, ls, t', h1, h2, h3⟩

/-- A span over the last possible column: the array of columns is left. -/
theorem C54_last : ∃ cs t, calls cs empty = .ok t ∧ Made t ∧ print t = .ub := by
  let cs : List Call := [.setPosition 9 0, .setSpan 2 1, .add (txt "abcd")]
  have h : seen cs = some .ub := by kernel_rfl
  have hb : (build cs empty).isSome = true := by decide +kernel
  obtain ⟨t, ht⟩ := Option.isSome_iff_exists.1 hb
  obtain ⟨e, m⟩ := build_made .empty ht
  obtain ⟨t1, h1, h2⟩ := seen_ub h
  rw [e] at h1
  cases h1
  exact ⟨cs, t, e, m, h2⟩

/-- A span that is cut to no columns: printing does not end. -/
theorem C54_hang : ∃ cs t, calls cs empty = .ok t ∧ print t = .hang := by
  have h : seen [.setPosition 0 1, .add (txt "x"), .setPosition 0 0, .setSpan 2 2, .add (txt "y")] = some .hang := by kernel_rfl
  obtain ⟨t, h1, h2⟩ := seen_hang h
  exact ⟨_, t, h1, h2⟩

/-! ## C69: tables of rows of texts -/

/-- Rows of texts, as the commands print them: the output is exactly the table that is meant, whether the alignments
of the columns are set in the beginning or in the end. -/
theorem C69 (hs : List HAlign) (rows : List (List (Option Str))) (h0 : hs.length ≤ maxCols)
    (hrows : ∀ r ∈ rows, r.length ≤ maxCols ∧ ∀ s ∈ r, Tidy s) (hh : ∀ r ∈ rows, rowHeight r ≤ 2 ^ 31) :
    (∃ t t', calls (.setAligns hs [] :: rowCalls rows) empty = .ok t ∧ print t = .ok (shown hs rows, t')) ∧
    ∃ t t', calls (rowCalls rows ++ [.setAligns hs []]) empty = .ok t ∧ print t = .ok (shown hs rows, t') := by
  obtain ⟨t, e, h⟩ := rows_made hs rows h0 hrows
  obtain ⟨t', e'⟩ := h.print hh
  obtain ⟨u, f, h⟩ := rows_made_last hs rows h0 hrows
  obtain ⟨u', f'⟩ := h.print hh
  exact ⟨⟨t, t', e, e'⟩, u, u', f, f'⟩

/-- Rows for an example. -/
def someRows : List (List (Option Str)) := [[txt "ab\nc", txt "d"], [], [none, txt "efgh", txt "i"], [txt "xyz"]]

example : (∀ r ∈ someRows, r.length ≤ maxCols ∧ ∀ s ∈ r, Tidy s) ∧ ∀ r ∈ someRows, rowHeight r ≤ 2 ^ 31 := by
  constructor
  · intro r hr
    simp only [someRows, List.mem_cons, List.not_mem_nil, or_false] at hr
    rcases hr with rfl | rfl | rfl | rfl
    all_goals
      refine ⟨by decide, fun s hs => ?_⟩
      simp only [List.mem_cons, List.not_mem_nil, or_false] at hs
    · rcases hs with rfl | rfl <;> exact tidy_of (by decide) (by decide)
    · rcases hs with rfl | rfl | rfl
      · trivial
      all_goals exact tidy_of (by decide) (by decide)
    · rcases hs with rfl; exact tidy_of (by decide) (by decide)
  · intro r hr
    simp only [someRows, List.mem_cons, List.not_mem_nil, or_false] at hr
    rcases hr with rfl | rfl | rfl | rfl <;> decide

example : shown [.right, .center] someRows =
    [" ab d   ".toList, "  c     ".toList, "   efghi".toList, "xyz     ".toList] := by decide +kernel

/-- Rows in which alignments are overridden for a row or a cell, as in the help: every text is aligned as asked for. -/
theorem C69_marked (hs : List HAlign) (rows : List (Option HAlign × List (Option HAlign × Option Str))) (h0 : hs.length ≤ maxCols)
    (hrows : ∀ r ∈ rows, r.2.length ≤ maxCols ∧ ∀ c ∈ r.2, Tidy c.2)
    (hh : ∀ r ∈ rows, rowHeight (r.2.map (·.2)) ≤ 2 ^ 31) :
    ∃ t t', calls (.setAligns hs [] :: markedCalls rows) empty = .ok t ∧
      print t = .ok (shownBy (alignIn hs rows) (rows.map fun r => r.2.map (·.2)), t') := by
  obtain ⟨t, e, h⟩ := marked_made (μ := columns) rfl hs rows h0 fun r hr => ⟨(hrows r hr).1, fun c hc => ((hrows r hr).2 c hc).reads⟩
  obtain ⟨t', e'⟩ := h.print fun r hr => by
    obtain ⟨r, h, rfl⟩ := List.mem_map.1 hr
    exact hh r h
  exact ⟨t, t', e, e'⟩

/-- The same for texts of arbitrary bytes without escape sequences: the bytes are counted, and so lines with characters outside
of ASCII are too narrow on the screen. -/
theorem C69_bytes (hs : List HAlign) (rows : List (Option HAlign × List (Option HAlign × Option Str))) (h0 : hs.length ≤ maxCols)
    (hrows : ∀ r ∈ rows, r.2.length ≤ maxCols ∧ ∀ c ∈ r.2, ∀ s ∈ c.2, s.head? ≠ some '\n' ∧ Char.ofNat 27 ∉ s)
    (hh : ∀ r ∈ rows, rowHeight (r.2.map (·.2)) ≤ 2 ^ 31) :
    ∃ t t', calls (.setAligns hs [] :: markedCalls rows) empty = .ok t ∧
      print t = .ok (shownWith List.length (alignIn hs rows) (rows.map fun r => r.2.map (·.2)), t') := by
  obtain ⟨t, e, h⟩ := marked_made (μ := List.length) rfl hs rows h0 fun r hr => ⟨(hrows r hr).1, fun c hc => by
    cases hx : c.2 with
    | none => trivial
    | some s =>
      obtain ⟨h1, h2⟩ := (hrows r hr).2 c hc s hx
      exact reads_bytes h1 h2⟩
  obtain ⟨t', e'⟩ := h.print fun r hr => by
    obtain ⟨r, h, rfl⟩ := List.mem_map.1 hr
    exact hh r h
  exact ⟨t, t', e, e'⟩

/-- Rows with marks for an example. -/
def markedRows : List (Option HAlign × List (Option HAlign × Option Str)) :=
  [(some .left, [(none, txt "ab"), (some .center, txt "c")]), (none, [(none, txt "d"), (none, txt "efg"), (some .right, none)]),
   (some .center, [(some .right, txt "h"), (none, txt "i"), (none, txt "jk")])]

example : (∀ r ∈ markedRows, r.2.length ≤ maxCols ∧ ∀ c ∈ r.2, Tidy c.2) ∧
    ∀ r ∈ markedRows, rowHeight (r.2.map (·.2)) ≤ 2 ^ 31 := by
  have key : ∀ r ∈ markedRows, r.2.length ≤ maxCols ∧ (∀ c ∈ r.2, c.2 = none ∨ ∃ x ∈ c.2, x.head? ≠ some '\n' ∧
      ∀ c ∈ x, c ≠ Char.ofNat 27 ∧ c.toNat < 128) ∧ rowHeight (r.2.map (·.2)) ≤ 2 ^ 31 := by decide +kernel
  refine ⟨fun r hr => ⟨(key r hr).1, fun c hc => ?_⟩, fun r hr => (key r hr).2.2⟩
  rcases (key r hr).2.1 c hc with h | ⟨x, hx, h1, h2⟩
  · rw [h]; trivial
  · rw [Option.mem_def.1 hx]
    exact tidy_of h1 h2

example : shownBy (alignIn [.left, .right] markedRows) (markedRows.map fun r => r.2.map (·.2)) =
    ["ab c   ".toList, "d efg  ".toList, " h i jk".toList] := by decide +kernel

/-! ## C72: tables without spans -/

/-- Without spans, what is printed is the grid of the texts: columns are as wide and rows as high as the largest text in
them, texts are aligned as asked for, and a line is where one was asked for. -/
theorem C72 {cs : List Call} {t : Table} (hc : ∀ c ∈ cs, Spanless c ∧ TidyCall c) (h : calls cs empty = .ok t)
    (h0 : t.numCols ≠ 0) (hs : ∀ p, ((t.cell p).text.elim 0 fun s => s.count '\n' + 1) ≤ 2 ^ 31) :
    ∃ w h t', print t = .ok (grid t w h, t') ∧
      (∀ p, p.1 < t.numRows → p.2 < t.numCols →
        (∀ l ∈ cellLines (t.cell p).text, columns l ≤ w p.2) ∧ (cellLines (t.cell p).text).length ≤ h p.1) ∧
      (∀ k, w k = 0 ∨ ∃ r l, r < t.numRows ∧ k < t.numCols ∧ l ∈ cellLines (t.cell (r, k)).text ∧ columns l = w k) ∧
      ∀ r, h r = 0 ∨ ∃ k, r < t.numRows ∧ k < t.numCols ∧ (cellLines (t.cell (r, k)).text).length = h r := by
  have hm := Made.empty.calls hc h
  obtain ⟨_, _, ht⟩ := hm.all
  have ch : ∀ p, (t.cell p).height = (cellLines (t.cell p).text).length := fun p => by rw [cellLines_length, (ht p).2.1]
  have cw : ∀ p, (t.cell p).width = largest ((cellLines (t.cell p).text).map columns) := fun p => by
    obtain ⟨x1, x2, x3, _⟩ := ht p
    rw [textWidth_largest x1] at x3
    exact (Res.ok.inj x3).symm
  obtain ⟨w, h', t', hd, e, _⟩ := grid_ok hc h h0 (fun p => by
    rw [(ht p).2.1]
    have := hs p
    cases ht : (t.cell p).text with
    | none => exact Nat.zero_le _
    | some s => rw [ht] at this; exact this)
  obtain ⟨w2, h2, hd2, d1, d2, d3⟩ := dimensions_tight (Inside.empty.calls h) (calls_single (fun c m => (hc c m).1) empty_single h)
  rw [hd] at hd2
  cases hd2
  refine ⟨w, h', t', e, fun p p1 p2 => ?_, fun k => ?_, fun r => ?_⟩
  · cases hp : (t.cell p).isSet with
    | true =>
      obtain ⟨f1, f2⟩ := d1 p p1 p2 hp
      rw [cw] at f1
      rw [ch] at f2
      exact ⟨fun l hl => Nat.le_trans (le_largest (List.mem_map_of_mem hl)) f1, f2⟩
    | false =>
      rw [(ht p).2.2.2 hp]
      exact ⟨fun l hl => by simp [cellLines] at hl, Nat.zero_le _⟩
  · rcases d2 k with h | ⟨r, h1, h2, _, h4⟩
    · exact .inl h
    · rw [cw] at h4
      by_cases hw : w k = 0
      · exact .inl hw
      have hne : (cellLines (t.cell (r, k)).text).map columns ≠ [] := fun e => by rw [e] at h4; exact hw h4.symm
      obtain ⟨l, hl, e⟩ := List.mem_map.1 (largest_mem hne)
      exact .inr ⟨r, l, h1, h2, hl, e.trans h4⟩
  · rcases d3 r with h | ⟨k, h1, h2, _, h4⟩
    · exact .inl h
    · rw [ch] at h4
      exact .inr ⟨k, h1, h2, h4⟩

/-- What is printed. -/
def printed (cs : List Call) : Option (List Str) :=
  match calls cs empty with
  | .ok t => match print t with
    | .ok (ls, _) => some ls
    | _ => none
  | _ => none

/-- The bytes of some lines. -/
def asBytes (ls : List String) : List Str := ls.map fun l => l.toList.flatMap bytes

example : printed boxed =
    some (asBytes ["┌───┬────┐", "│ab ║f   │", "│cde║    │", "├───┼────┤", "│x  ║yyyy│", "└───┴────┘"]) := by
  simp only [asBytes, List.map_cons, List.map_nil]
  kernel_rfl

example : printed sample = some (asBytes ["┌───────────┐", "│wide cellf │", "│         ──┤", "│         g │", "│         h │",
    "│x    y   zz│", "│         z │", "└───────────┘"]) := by
  simp only [asBytes, List.map_cons, List.map_nil]
  kernel_rfl

/-- A cell over two rows is aligned as its first row says. -/
example : printed [.setSpan 1 2, .overrideH .right, .overrideV .bottom, .add (txt "a\nbb"), .add (txt "c"), .nextRow, .setPosition 1 1,
    .add (txt "d"), .nextRow, .add (txt "wide"), .add (txt "e")] = some (asBytes ["   ac", "  bbd", "widee"]) := by kernel_rfl

/-- A negative width pads on the right, as `printf` does. -/
example : padLeft (-3) "a".toList = "a  ".toList ∧ padLeft 3 "a".toList = "  a".toList := by decide +kernel

/-! ## C70: counters of lines -/

/-- Whatever is called, a counter is never less than the lines that are asked for. -/
theorem C70_partial {cs : List Call} {t : Table} (h : calls cs empty = .ok t) :
    (∀ k, k < maxCols → leftLines t k ≤ t.colCounter k) ∧ ∀ r, r < t.numRows → aboveLines t r ≤ t.rowCounter r :=
  let c := (Counts.empty (.inl rfl)).calls (R := (· ≤ ·)) (.inl rfl) (.inl rfl) .empty h
  ⟨c.left, c.above⟩

/-- Without spans, the counters are the numbers of lines. -/
theorem C70_spanless {cs : List Call} (hc : ∀ c ∈ cs, ∀ x y, c ≠ .setSpan x y) {t : Table} (h : calls cs empty = .ok t) :
    (∀ k, k < maxCols → t.colCounter k = leftLines t k) ∧ ∀ r, r < t.numRows → t.rowCounter r = aboveLines t r :=
  let c := (Counts.empty (.inr rfl)).calls (R := (· = ·)) (.inr rfl) (.inr hc) .empty h
  ⟨fun k hk => (c.left k hk).symm, fun r hr => (c.above r hr).symm⟩

/-- No counter is decreased below zero: wherever a line is replaced, the counter is positive. -/
theorem C70_positive {cs : List Call} {t : Table} (h : calls cs empty = .ok t) :
    (∀ r k, r < t.numRows → k < maxCols → (t.cell (r, k)).left.getD .none ≠ .none → 0 < t.colCounter k) ∧
    (∀ k, k < maxCols → t.colBorder k ≠ .none → 0 < t.colCounter k) ∧
    (∀ r k, r < t.numRows → k < maxCols → (t.cell (r, k)).above.getD .none ≠ .none → 0 < t.rowCounter r) ∧
    ∀ r, r < t.numRows → t.rowBorder r ≠ .none → 0 < t.rowCounter r := by
  obtain ⟨h1, h2⟩ := C70_partial h
  have one : ∀ {b : Border}, b ≠ .none → lined b = 1 := fun h => if_neg h
  refine ⟨fun r k hr hk hb => ?_, fun k hk hb => ?_, fun r k hr hk hb => ?_, fun r hr hb => ?_⟩
  · have a := h1 k hk
    have b := le_sum hr (fun r => lined ((t.cell (r, k)).left.getD .none))
    rw [leftLines] at a
    simp only [one hb] at b
    omega
  · have a := h1 k hk
    rw [leftLines, one hb] at a
    omega
  · have a := h2 r hr
    have b := le_sum hk (fun k => lined ((t.cell (r, k)).above.getD .none))
    rw [aboveLines] at a
    simp only [one hb] at b
    omega
  · have a := h2 r hr
    rw [aboveLines, one hb] at a
    omega

example : ∃ t, calls boxed empty = .ok t := by
  obtain ⟨t, _, _, h, _⟩ := seen_ok (cs := boxed) (ws := [10, 10, 10, 10, 10, 10]) (by kernel_rfl)
  exact ⟨t, h⟩

/-- The counter of a column and the lines in it. -/
def counted (cs : List Call) (k : Nat) : Option (Nat × Nat) :=
  match calls cs empty with
  | .ok t => some (t.colCounter k, leftLines t k)
  | _ => none

example : counted boxed 1 = some (1, 1) := by decide +kernel
example : counted [.add none, .overrideLeft .single, .nextRow, .setPosition 1 1, .overrideLeft .double, .setVline 1 .single] 1 =
    some (3, 3) := by decide +kernel

/-- Equality fails: a span takes a line away and the counter stays. -/
theorem C70_phantom : counted [.setPosition 1 0, .overrideLeft .single, .setPosition 0 0, .setSpan 2 1, .add (txt "ab"), .nextRow,
    .add (txt "a"), .add (txt "b")] 1 = some (1, 0) := by decide +kernel

/-! ## C71: spans divide a table -/

/-- Made properly, every cell lies in the rectangle of exactly one cell without parent, which is the one it points
to. -/
theorem C71_partial {t : Table} (hm : Made t) (r k : Nat) (hr : r < t.numRows) (hk : k < maxCols) :
    ∃ p : Nat × Nat, (t.cell p).parent = none ∧
      (p = (r, k) ∧ (t.cell (r, k)).parent = none ∨ (t.cell (r, k)).parent = some p) ∧
      (p.1 ≤ r ∧ r < p.1 + (t.cell p).spanY ∧ p.2 ≤ k ∧ k < p.2 + (t.cell p).spanX) ∧
      ∀ q : Nat × Nat, (t.cell q).parent = none → q.1 ≤ r → r < q.1 + (t.cell q).spanY → q.2 ≤ k → k < q.2 + (t.cell q).spanX →
        q = p := by
  obtain ⟨hi, hg, _⟩ := hm.all
  obtain ⟨o1, o2, o3, o4, o5⟩ := hg.own r k hr hk
  refine ⟨owner t (r, k), o5, ?_, ⟨o1, o2, o3, o4⟩, fun q q1 q2 q3 q4 q5 => ?_⟩
  · rw [owner]
    cases (t.cell (r, k)).parent with
    | none => exact .inl ⟨rfl, rfl⟩
    | some p => exact .inr rfl
  · have := hg.rect q.1 q.2 (by omega) (by omega) q1 (r - q.1) (k - q.2)
      (show r - q.1 < (t.cell q).spanY by omega) (show k - q.2 < (t.cell q).spanX by omega)
    rw [show q.1 + (r - q.1) = r by omega, show q.2 + (k - q.2) = k by omega] at this
    exact this.symm

/-- The parent of a cell and the rectangle of another. -/
def spanAt (cs : List Call) (p q : Nat × Nat) : Option (Option (Nat × Nat) × Nat × Nat) :=
  match calls cs empty with
  | .ok t => some ((t.cell p).parent, (t.cell q).spanX, (t.cell q).spanY)
  | _ => none

example : spanAt sample (1, 1) (0, 0) = some (some (0, 0), 2, 2) := by decide +kernel

/-- It fails if a span meets a cell that is set: it is cut, but the cells it has taken before still belong to it.
Here its text is printed twice. -/
theorem C71_cut : let cs : List Call := [.setPosition 1 1, .add (txt "x"), .setPosition 0 0, .setSpan 2 2, .add (txt "yyy")]
    spanAt cs (0, 1) (0, 0) = some (some (0, 0), 1, 1) ∧ seen cs = some (.ok [6, 4]) := by
  refine ⟨by decide +kernel, by kernel_rfl⟩

/-! ## C73: order of the texts -/

/-- Unless a position is set, texts are added in reading order, and none is overwritten: the cells that are filled,
from left to right and row by row, have exactly the texts that were added, whatever spans and lines there are. -/
theorem C73 {cs : List Call} {t : Table} (hc : ∀ c ∈ cs, ∀ x y, c ≠ .setPosition x y) (h : calls cs empty = .ok t) :
    ∃ ps : List (Nat × Nat), ps.Pairwise Before ∧ (∀ p ∈ ps, p.1 < t.numRows ∧ p.2 < t.numCols) ∧
      (∀ p, p.1 < t.numRows → p.2 < maxCols → (Filled (t.cell p) ↔ p ∈ ps)) ∧
      ps.map (fun p => (t.cell p).text) = addedTexts cs := by
  obtain ⟨ps, o⟩ := Order.empty.calls .empty hc h
  have hi := Inside.empty.calls h
  refine ⟨ps, o.sorted, fun p hp => ?_, o.filled, o.text⟩
  obtain ⟨r1, r2⟩ := o.range p hp
  exact ⟨r1, (hi.cell p r1 r2).2.2.2 ((o.filled p r1 r2).2 hp).1⟩

example : ∀ c ∈ sample, ∀ x y, c ≠ .setPosition x y := by
  intro c hc x y e
  subst e
  simp [sample] at hc

example : addedTexts sample = [txt "wide cell", txt "f", txt "g\nh", txt "x", txt "y", txt "zz\nz"] := rfl

/-- The text of a cell. -/
def textAt (cs : List Call) (p : Nat × Nat) : Option (Option Str) :=
  match calls cs empty with
  | .ok t => some (t.cell p).text
  | _ => none

/-- Two cells are skipped by what follows a span of two rows. -/
example : textAt sample (1, 2) = some (txt "g\nh") := by decide +kernel

/-- With a position, texts can be overwritten. -/
theorem C73_position : textAt [.add (txt "a"), .setPosition 0 0, .add (txt "b")] (0, 0) = some (txt "b") := by decide +kernel

/-! ## C74: boxes -/

/-- What `make_boxed` and `set_all_vlines` draw, and that nothing else is changed. -/
theorem C74_lines {cs : List Call} {t t' : Table} {s : Border} (h : calls cs empty = .ok t) :
    (makeBoxed s t = .ok t' → t'.cell = t.cell ∧ t'.numRows = t.numRows ∧ t'.numCols = max t.numCols 1 + 1 ∧
      (∀ r, t'.rowBorder r = if r = 0 ∨ r = t.numRows - 1 then s else t.rowBorder r) ∧
      ∀ k, t'.colBorder k = if k = 0 ∨ k = t'.numCols - 1 then s else t.colBorder k) ∧
    (setAllVlines s t = .ok t' → t'.cell = t.cell ∧ t'.numRows = t.numRows ∧ t'.numCols = t.numCols ∧
      t'.rowBorder = t.rowBorder ∧ ∀ k, t'.colBorder k = if 1 ≤ k ∧ k < t.numCols then s else t.colBorder k) := by
  constructor
  · intro e
    obtain ⟨_, b2, b3, b4, _, _, b7, b8, _, _⟩ := makeBoxed_eq (Inside.empty.calls h) e
    refine ⟨b2, b3, b4, b7, fun k => ?_⟩
    rw [b8 k, b4, Nat.add_sub_cancel]
  · intro e
    rw [setAllVlines] at e
    by_cases hn : t.numCols = 0
    · rw [hn] at e
      simp only [Nat.zero_sub, vlinesLoop, Res.ok.injEq] at e
      subst e
      exact ⟨rfl, rfl, rfl, rfl, fun k => by rw [if_neg (by omega)]⟩
    obtain ⟨a1, a2, a3, a4, a5, _⟩ := vlinesLoop_eq _ _ (by omega) e
    refine ⟨a1, a2, a3, a4, fun k => ?_⟩
    rw [a5]
    congr 1
    exact propext ⟨fun h => by omega, fun h => by omega⟩

/-- A table without spans and without lines for single cells whose last row is blank: in a box, it is printed with a closed
frame. -/
theorem C74 {cs : List Call} {t t' : Table} {s : Border} (hc : ∀ c ∈ cs, Lineless c ∧ TidyCall c) (h : calls cs empty = .ok t)
    (h0 : t.numCols ≠ 0) (h1 : 1 < t.numRows) (hl : ∀ k, k < t.numCols → (t.cell (t.numRows - 1, k)).text = none)
    (hs : ∀ p, ((t.cell p).text.elim 0 fun s => s.count '\n' + 1) ≤ 2 ^ 31) (hb : s ≠ .none) (e : makeBoxed s t = .ok t') :
    ∃ ls t'', print t' = .ok (ls, t'') ∧ Boxed s ls := by
  have hi := Inside.empty.calls h
  obtain ⟨b1, b2, b3, b4, _, _, b7, b8, _, _⟩ := makeBoxed_eq hi e
  have hm : max t.numCols 1 = t.numCols := by omega
  rw [hm] at b1 b4 b8
  have all : calls (cs ++ [.makeBoxed s]) empty = .ok t' := by
    rw [calls_append, h, Res.bind_ok, calls, call, e]
    rfl
  have hc' : ∀ c ∈ cs ++ [.makeBoxed s], Lineless c ∧ TidyCall c := fun c hm => by
    rcases List.mem_append.1 hm with hm | hm
    · exact hc c hm
    · rw [List.mem_singleton.1 hm]; exact ⟨trivial, trivial⟩
  obtain ⟨w, h', t'', e', _, w0, h0'⟩ := C72 (fun c hm => ⟨(hc' c hm).1.spanless, (hc' c hm).2⟩) all (by omega) (by rw [b2]; exact hs)
  obtain ⟨n, hn⟩ : ∃ n, t.numCols = n + 1 := ⟨t.numCols - 1, by omega⟩
  obtain ⟨m, hm⟩ : ∃ m, t.numRows = m + 2 := ⟨t.numRows - 2, by omega⟩
  have ht : ∀ r, r < m + 2 → (t'.cell (r, n + 1)).text = none := by
    intro r hr
    obtain ⟨_, _, ht⟩ := (Made.empty.calls (fun c hm => ⟨(hc c hm).1.spanless, (hc c hm).2⟩) h).all
    rw [b2]
    refine (ht (r, n + 1)).2.2.2 ?_
    cases hset : (t.cell (r, n + 1)).isSet with
    | false => rfl
    | true =>
      have := (hi.cell (r, n + 1) (by simp only; omega) (by simp only; omega)).2.2.2 hset
      simp only at this
      omega
  refine ⟨_, t'', e', grid_boxed hb m n (by omega) (by omega) (calls_bare1 (fun c hm => (hc' c hm).1) (fun p => ⟨rfl, rfl⟩) all)
    (by rw [b7, if_pos (.inl rfl)]) (by rw [b7, if_pos (.inr (by omega))]) (by rw [b8, if_pos (.inl rfl)])
    (by rw [b8, if_pos (.inr (by omega))]) ?_ ?_ ht⟩
  · rcases w0 (n + 1) with hw | ⟨r, l, hr, _, hl, _⟩
    · exact hw
    · rw [ht r (by omega)] at hl
      simp [cellLines] at hl
  · rcases h0' (m + 1) with hw | ⟨k, _, hk, hl'⟩
    · exact hw
    · rcases Nat.lt_or_ge k t.numCols with hk' | hk'
      · have := hl k hk'
        rw [show t.numRows - 1 = m + 1 by omega] at this
        rw [← hl', b2, this]
        rfl
      · rw [← hl', show k = n + 1 by omega, ht (m + 1) (by omega)]
        rfl

/-- The table of the example above, before its box. -/
def unboxed : List Call :=
  [.add (txt "ab\ncde"), .add (txt "f"), .nextRow, .setHline .single, .add (txt "x"), .overrideH .center, .add (txt "yyyy"), .nextRow,
    .setAllVlines .double]

example : ∀ c ∈ unboxed, Lineless c ∧ TidyCall c := by
  intro c hc
  simp only [unboxed, List.mem_cons, List.not_mem_nil, or_false] at hc
  rcases hc with rfl | rfl | rfl | rfl | rfl | rfl | rfl | rfl | rfl <;> refine ⟨trivial, ?_⟩
  any_goals trivial
  all_goals exact tidy_of (by decide) (by decide)

/-- The other hypotheses. -/
def boxable (cs : List Call) : Bool :=
  match calls cs empty with
  | .ok t => t.numCols == 2 && t.numRows == 3 && (List.range 2).all (fun k => (t.cell (2, k)).text == none) &&
      (match makeBoxed .single t with | .ok _ => true | _ => false)
  | _ => false

example : boxable unboxed = true := by decide +kernel

end Verif.LayoutProps
