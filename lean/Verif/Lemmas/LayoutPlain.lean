import Verif.Lemmas.LayoutPrint

/-!
# Lemmas: tables without spans
-/

namespace Verif.LayoutSpec
open Layout TextSpec

/-- A cell that is not part of a span. -/
def Single (c : Cell) : Prop := c.spanX = 1 ∧ c.spanY = 1 ∧ c.parent = none

theorem Single.blank : Single {} := ⟨rfl, rfl, rfl⟩

theorem appendRows_single (n : Nat) {t : Table} (h : ∀ p, Single (t.cell p)) (p) : Single ((appendRows n t).cell p) := by
  induction n generalizing t with
  | zero => exact h p
  | succ n ih =>
    refine ih fun q => ?_
    rw [appendRow_cell]
    split
    · exact .blank
    · exact h q

theorem setVline_cell {t t' : Table} {i s} (h : setVline i s t = .ok t') : t'.cell = t.cell := (setVline_ok h).2.2.2.2.2

theorem setPosition_single {x y} {t t' : Table} (h : ∀ p, Single (t.cell p)) (he : setPosition x y t = .ok t') (p) :
    Single (t'.cell p) := by
  rw [setPosition] at he
  split at he
  · cases he
  · simp only [Res.ok.injEq] at he
    subst he
    exact appendRows_single _ h p

theorem onCurrent_single {f : Cell → Cell} (hf : ∀ c, Single c → Single (f c)) {t t' : Table} (h : ∀ p, Single (t.cell p))
    (he : onCurrent f t = .ok t') (p) : Single (t'.cell p) := by
  rw [onCurrent] at he
  split at he
  · cases he
  · simp only [Res.ok.injEq] at he
    subst he
    by_cases e : p = (t.curRow, t.curCol)
    · subst e; rw [setCell_eq]; exact hf _ (h _)
    · rw [setCell_ne _ _ e]; exact h p

theorem call_single {c : Call} (hc : Spanless c) {t t' : Table} (h : ∀ p, Single (t.cell p)) (he : call c t = .ok t') (p) :
    Single (t'.cell p) := by
  cases c with
  | setPosition x y => exact setPosition_single h he p
  | nextRow =>
    simp only [call, Res.ok.injEq] at he
    subst he
    rw [nextRow]
    split
    · exact h p
    · exact appendRows_single 1 h p
  | add s =>
    obtain ⟨_, w, hw, h1, h2, h3, h4, h5, h6, h7⟩ := addText_ok he
    rw [h7]
    by_cases e : p = (t.curRow, t.curCol)
    · subst e; rw [put_eq]; exact h _
    · rw [put_ne _ _ e]; exact h p
  | setAligns hs vs =>
    simp only [Layout.call, setAligns] at he
    split at he
    · cases he
    · simp only [Res.ok.injEq] at he
      subst he
      exact h p
  | overrideH a => exact onCurrent_single (f := fun c => { c with hAlign := some a }) (fun c hc => hc) h he p
  | overrideV a => exact onCurrent_single (f := fun c => { c with vAlign := some a }) (fun c hc => hc) h he p
  | overrideHRow a =>
    cases he
    simp only [onRow]
    split
    · exact h p
    · exact h p
  | overrideVRow a =>
    cases he
    simp only [onRow]
    split
    · exact h p
    · exact h p
  | setHline s => cases he; exact h p
  | setVline i s => rw [setVline_cell he]; exact h p
  | makeBoxed s =>
    obtain ⟨t1, t2, t3, t4, h1, h2, h3, h4, rfl⟩ := makeBoxed_ok he
    have g1 := setPosition_single h h1
    rw [← setVline_cell h2] at g1
    have g2 := setPosition_single (t := setHline s t2) g1 h3
    rw [← setVline_cell h4] at g2
    exact g2 p
  | setAllVlines s => rw [(vlinesLoop_ok _ _ he).2.2.2.2]; exact h p
  | overrideLeft s =>
    simp only [Layout.call, overrideLeft] at he
    split at he
    · cases he
    · simp only [Res.ok.injEq] at he
      subst he
      show Single ((setCell t (t.curRow, t.curCol) fun c => { c with left := some s }).cell p)
      by_cases e : p = (t.curRow, t.curCol)
      · subst e; rw [setCell_eq]; exact h _
      · rw [setCell_ne _ _ e]; exact h p
  | overrideAbove s =>
    simp only [Layout.call, overrideAbove] at he
    split at he
    · cases he
    · simp only [Res.ok.injEq] at he
      subst he
      show Single ((setCell t (t.curRow, t.curCol) fun c => { c with above := some s }).cell p)
      by_cases e : p = (t.curRow, t.curCol)
      · subst e; rw [setCell_eq]; exact h _
      · rw [setCell_ne _ _ e]; exact h p
  | setSpan x y => exact hc.elim

theorem calls_single {cs : List Call} (hc : ∀ c ∈ cs, Spanless c) {t t' : Table} (h : ∀ p, Single (t.cell p))
    (he : calls cs t = .ok t') (p) : Single (t'.cell p) := by
  induction cs generalizing t with
  | nil =>
    simp only [calls, Res.ok.injEq] at he
    exact he ▸ h p
  | cons c cs ih =>
    obtain ⟨t1, h1, he⟩ := Res.bind_eq_ok.1 he
    exact ih (fun c hm => hc c (List.mem_cons_of_mem _ hm)) (call_single (hc c List.mem_cons_self) h h1) he

theorem empty_single (p) : Single (empty.cell p) := .blank

theorem Made.calls {cs : List Call} {t t' : Table} (h : Made t) (hc : ∀ c ∈ cs, Spanless c ∧ TidyCall c)
    (he : calls cs t = .ok t') : Made t' := by
  induction cs generalizing t with
  | nil =>
    simp only [Layout.calls, Res.ok.injEq] at he
    exact he ▸ h
  | cons c cs ih =>
    obtain ⟨t1, h1, he⟩ := Res.bind_eq_ok.1 he
    refine ih (.call h ?_ h1) (fun c hm => hc c (List.mem_cons_of_mem _ hm)) he
    obtain ⟨a, b⟩ := hc c List.mem_cons_self
    cases c <;> first | exact b | exact trivial | exact a.elim

/-- Widths of a table without spans. -/
theorem dimensions_tight {t : Table} (hi : Inside t) (hs : ∀ p, Single (t.cell p)) :
    ∃ w h, dimensions t = .ok (w, h) ∧
      (∀ p, p.1 < t.numRows → p.2 < t.numCols → (t.cell p).isSet = true → (t.cell p).width ≤ w p.2 ∧ (t.cell p).height ≤ h p.1) ∧
      (∀ k, w k = 0 ∨ ∃ r, r < t.numRows ∧ k < t.numCols ∧ (t.cell (r, k)).isSet = true ∧ (t.cell (r, k)).width = w k) ∧
      (∀ r, h r = 0 ∨ ∃ k, r < t.numRows ∧ k < t.numCols ∧ (t.cell (r, k)).isSet = true ∧ (t.cell (r, k)).height = h r) := by
  have hw0 : ∀ p, widthConstraint t p = ⟨p.2, p.2 + 1, (t.cell p).width⟩ := fun p => by
    rw [widthConstraint, (hs p).1]; rfl
  have hh0 : ∀ p, heightConstraint t p = ⟨p.1, p.1 + 1, (t.cell p).height⟩ := fun p => by
    rw [heightConstraint, (hs p).2.1]; rfl
  obtain ⟨w, ew, w1, w2⟩ := satisfy_tight (n := t.numCols) (cs := (heads t).map (widthConstraint t)) (fun c hc => by
    obtain ⟨p, hp, rfl⟩ := List.mem_map.1 hc
    obtain ⟨⟨h1, h2⟩, _, _⟩ := mem_heads.1 hp
    rw [hw0]; exact h2) (fun c hc => by
    obtain ⟨p, hp, rfl⟩ := List.mem_map.1 hc
    rw [hw0]; simp only; omega)
  obtain ⟨h, eh, h1, h2⟩ := satisfy_tight (n := t.numRows) (cs := (heads t).map (heightConstraint t)) (fun c hc => by
    obtain ⟨p, hp, rfl⟩ := List.mem_map.1 hc
    obtain ⟨⟨h1, h2⟩, _, _⟩ := mem_heads.1 hp
    rw [hh0]; exact h1) (fun c hc => by
    obtain ⟨p, hp, rfl⟩ := List.mem_map.1 hc
    rw [hh0]; simp only; omega)
  refine ⟨w, h, by rw [dimensions, ew, Res.bind_ok, eh]; rfl, fun p hp1 hp2 hset => ?_, fun k => ?_, fun r => ?_⟩
  · have hm := mem_heads.2 ⟨⟨hp1, hp2⟩, hset, (hs p).2.2⟩
    have a := w1 _ (List.mem_map_of_mem hm)
    have b := h1 _ (List.mem_map_of_mem hm)
    rw [hw0] at a
    rw [hh0] at b
    exact ⟨a, b⟩
  · rcases w2 k with h0 | ⟨c, hc, hlo, hmin⟩
    · exact .inl h0
    · obtain ⟨p, hp, rfl⟩ := List.mem_map.1 hc
      obtain ⟨⟨hp1, hp2⟩, hset, _⟩ := mem_heads.1 hp
      rw [hw0] at hlo hmin
      subst hlo
      exact .inr ⟨p.1, hp1, hp2, hset, hmin.symm⟩
  · rcases h2 r with h0 | ⟨c, hc, hlo, hmin⟩
    · exact .inl h0
    · obtain ⟨p, hp, rfl⟩ := List.mem_map.1 hc
      obtain ⟨⟨hp1, hp2⟩, hset, _⟩ := mem_heads.1 hp
      rw [hh0] at hlo hmin
      subst hlo
      exact .inr ⟨p.2, hp1, hp2, hset, hmin.symm⟩

/-! ### Rows one after another -/

/-- The state between two rows: the current row is the last one, and it is blank. -/
structure Fresh (t : Table) : Prop where
  last : t.curRow + 1 = t.numRows
  first : t.curCol = 0
  blank : ∀ k, t.cell (t.curRow, k) = {}

theorem skipSet_unset (t : Table) (r n k : Nat) (h : (t.cell (r, k)).isSet = false) : skipSet t r n k = k := by
  cases n with
  | zero => rfl
  | succ n => rw [skipSet, if_neg (by rw [h]; exact Bool.false_ne_true)]

/-- Texts that have a width. -/
def Sized (s : Option Str) : Prop := ∃ w, textWidth s = .ok w

theorem Tidy.sized {s : Option Str} (h : Tidy s) : Sized s := by
  obtain ⟨w, hw, -⟩ := textWidth_tidy h
  exact ⟨w, hw⟩

/-- A cell with a text and nothing else. -/
def Holds (c : Cell) (s : Option Str) : Prop := c.isSet = true ∧ c.text = s ∧ c.hAlign = none ∧ c.vAlign = none ∧
  c.height = textHeight s ∧ textWidth s = .ok c.width

/-- The table after a text has been added. -/
def added (s : Option Str) (w : Nat) (t : Table) : Table :=
  let t1 := setCell t (t.curRow, t.curCol) fun c =>
    { c with isSet := true, text := s, height := textHeight s, width := w }
  { t1 with
    numCols := if t.numCols ≤ t.curCol then t.curCol + 1 else t.numCols
    curCol := skipSet t1 t.curRow (maxCols - t.curCol) t.curCol }

/-- A text is added. -/
theorem add_ok (s : Option Str) (hs : Sized s) (t : Table) (hlen : t.curCol < maxCols) (hb : ∀ k, t.curCol ≤ k → t.cell (t.curRow, k) = {}) :
    ∃ t1, addText s t = .ok t1 ∧ t1.curRow = t.curRow ∧ t1.numRows = t.numRows ∧ t1.curCol = t.curCol + 1 ∧
      t1.numCols = max t.numCols (t.curCol + 1) ∧ t1.hAligns = t.hAligns ∧ t1.vAligns = t.vAligns ∧
      t1.colCounter = t.colCounter ∧ t1.rowCounter = t.rowCounter ∧ Holds (t1.cell (t.curRow, t.curCol)) s ∧
      ∀ p, p ≠ (t.curRow, t.curCol) → t1.cell p = t.cell p := by
  obtain ⟨w, hw⟩ := hs
  refine ⟨added s w t, by rw [addText, if_neg (by omega), hw, Res.bind_ok]; rfl, rfl, rfl, ?_, ?_, rfl, rfl, rfl, rfl, ?_, ?_⟩
  · have hset : ((setCell t (t.curRow, t.curCol) fun c =>
        { c with isSet := true, text := s, height := textHeight s, width := w }).cell (t.curRow, t.curCol)).isSet = true := by
      rw [setCell_eq]
    simp only [added]
    rw [show maxCols - t.curCol = (maxCols - t.curCol - 1) + 1 by omega, skipSet, if_pos hset]
    refine skipSet_unset _ _ _ _ ?_
    rw [setCell_ne _ _ (fun h => by simp only [Prod.mk.injEq] at h; omega), hb _ (by omega)]
  · dsimp only [added]
    split <;> omega
  · show Holds ((setCell t (t.curRow, t.curCol) fun c =>
        { c with isSet := true, text := s, height := textHeight s, width := w }).cell (t.curRow, t.curCol)) s
    rw [setCell_eq, hb _ (Nat.le_refl _)]
    exact ⟨rfl, rfl, rfl, rfl, rfl, hw⟩
  · intro p hp
    exact setCell_ne t (fun c => { c with isSet := true, text := s, height := textHeight s, width := w }) hp

/-- A row of texts. -/
theorem addRow_ok (row : List (Option Str)) (hrow : ∀ s ∈ row, Sized s) (t : Table) (hlen : t.curCol + row.length ≤ maxCols)
    (hb : ∀ k, t.curCol ≤ k → t.cell (t.curRow, k) = {}) :
    ∃ t', calls (row.map .add) t = .ok t' ∧ t'.curRow = t.curRow ∧ t'.numRows = t.numRows ∧
      t'.numCols = max t.numCols (if row = [] then 0 else t.curCol + row.length) ∧
      t'.hAligns = t.hAligns ∧ t'.vAligns = t.vAligns ∧ t'.colCounter = t.colCounter ∧ t'.rowCounter = t.rowCounter ∧
      (∀ i s, row[i]? = some s → Holds (t'.cell (t.curRow, t.curCol + i)) s) ∧
      ∀ p, ¬ (p.1 = t.curRow ∧ t.curCol ≤ p.2 ∧ p.2 < t.curCol + row.length) → t'.cell p = t.cell p := by
  induction row generalizing t with
  | nil => exact ⟨t, rfl, rfl, rfl, by simp, rfl, rfl, rfl, rfl, by simp, fun p _ => rfl⟩
  | cons s row ih =>
    have hlen' : t.curCol + (row.length + 1) ≤ maxCols := by simpa using hlen
    obtain ⟨t1, e, a1, a2, a3, a4, a5, a6, a7, a8, a9, a10⟩ :=
      add_ok s (hrow s List.mem_cons_self) t (by omega) hb
    obtain ⟨t', e', b1, b2, b4, b5, b6, b7, b8, b9, b10⟩ := ih (fun s hs => hrow s (List.mem_cons_of_mem _ hs)) t1 (by omega)
      (fun k hk => by
        rw [a1, a10 _ (fun h => by simp only [Prod.mk.injEq] at h; omega)]
        exact hb k (by omega))
    rw [a1, a3] at b9 b10
    refine ⟨t', ?_, b1.trans a1, b2.trans a2, ?_, b5.trans a5, b6.trans a6, b7.trans a7, b8.trans a8, ?_, ?_⟩
    · rw [List.map_cons, calls, call, e, Res.bind_ok, e']
    · rw [b4, a4, a3, if_neg (List.cons_ne_nil _ _), List.length_cons]
      split
      · rename_i h; subst h; simp
      · omega
    · intro i x hi
      cases i with
      | zero =>
        simp only [List.getElem?_cons_zero, Option.some.injEq] at hi
        subst hi
        rw [Nat.add_zero, b10 _ (by simp only; omega)]
        exact a9
      | succ i =>
        simp only [List.getElem?_cons_succ] at hi
        have := b9 i x hi
        rwa [show t.curCol + 1 + i = t.curCol + (i + 1) by omega] at this
    · intro p hp
      rw [List.length_cons] at hp
      rw [b10 p (by omega)]
      refine a10 p fun h => hp ?_
      subst h
      exact ⟨rfl, Nat.le_refl _, by simp only; omega⟩

theorem calls_append (cs cs' : List Call) (t : Table) : calls (cs ++ cs') t = (calls cs t >>= calls cs') := by
  induction cs generalizing t with
  | nil => rfl
  | cons c cs ih =>
    rw [List.cons_append, calls, calls]
    cases call c t with
    | ok t1 => exact ih t1
    | defect => rfl
    | ub => rfl

/-- Rows of texts. -/
theorem rowCalls_ok (rows : List (List (Option Str))) (hrows : ∀ r ∈ rows, r.length ≤ maxCols ∧ ∀ s ∈ r, Sized s) (t : Table)
    (hf : Fresh t) :
    ∃ t', calls (rowCalls rows) t = .ok t' ∧ Fresh t' ∧ t'.numRows = t.numRows + rows.length ∧
      t'.numCols = max t.numCols ((rows.map List.length).foldr max 0) ∧
      t'.hAligns = t.hAligns ∧ t'.vAligns = t.vAligns ∧ t'.colCounter = t.colCounter ∧
      (∀ r, t'.rowCounter r = t.rowCounter r ∨ t'.rowCounter r = 0) ∧
      (∀ i row, rows[i]? = some row → (∀ k s, row[k]? = some s → Holds (t'.cell (t.curRow + i, k)) s) ∧
        ∀ k, row.length ≤ k → t'.cell (t.curRow + i, k) = {}) ∧
      ∀ p, p.1 < t.curRow → t'.cell p = t.cell p := by
  induction rows generalizing t with
  | nil =>
    refine ⟨t, rfl, hf, rfl, by simp, rfl, rfl, rfl, fun r => .inl rfl, by simp, fun p _ => rfl⟩
  | cons row rows ih =>
    obtain ⟨hr1, hr2⟩ := hrows row List.mem_cons_self
    obtain ⟨t1, e1, a1, a2, a4, a5, a6, a7, a8, a9, a10⟩ := addRow_ok row hr2 t (by rw [hf.first]; omega) (fun k _ => hf.blank k)
    simp only [hf.first, Nat.zero_add] at a4 a9 a10
    have hn : ¬ t1.curRow + 1 < t1.numRows := by rw [a1, a2, hf.last]; omega
    have e2 : nextRow t1 = { appendRow t1 with curRow := t1.numRows, curCol := 0 } := by
      rw [nextRow, if_neg hn]
    have hf1 : Fresh (nextRow t1) := by
      rw [e2]
      exact ⟨rfl, rfl, fun k => by show (appendRow t1).cell (t1.numRows, k) = {}; rw [appendRow_cell, if_pos rfl]⟩
    obtain ⟨t', e', g, b2, b4, b5, b6, b7, b8, b9, b10⟩ := ih (fun r hr => hrows r (List.mem_cons_of_mem _ hr)) _ hf1
    have hcr : (nextRow t1).curRow = t.curRow + 1 := by
      rw [e2]
      show t1.numRows = _
      rw [a2, hf.last]
    have hcell : ∀ p, p.1 < t1.numRows → (nextRow t1).cell p = t1.cell p := fun p hp => by
      rw [e2]
      show (appendRow t1).cell p = _
      rw [appendRow_cell, if_neg (by omega)]
    rw [hcr] at b9 b10
    have hlast := hf.last
    refine ⟨t', ?_, g, ?_, ?_, ?_, ?_, ?_, fun r => ?_, ?_, ?_⟩
    · rw [rowCalls, List.flatMap_cons, calls_append, calls_append, e1, Res.bind_ok]
      show ((call .nextRow t1 >>= calls []) >>= _) = _
      exact e'
    · rw [b2, e2]
      show t1.numRows + 1 + rows.length = _
      rw [a2, List.length_cons]; omega
    · rw [b4, e2]
      show max t1.numCols _ = _
      rw [a4, List.map_cons, List.foldr_cons]
      split
      · rename_i h; subst h; simp
      · omega
    · rw [b5, e2]; exact a5
    · rw [b6, e2]; exact a6
    · rw [b7, e2]; exact a7
    · rcases b8 r with h | h
      · rw [h, e2]
        show (appendRow t1).rowCounter r = _ ∨ (appendRow t1).rowCounter r = _
        by_cases hr : r = t1.numRows
        · subst hr
          right
          exact put_eq _ _ _
        · left
          rw [← a8]
          exact put_ne _ _ hr
      · exact .inr h
    · intro i row' hi
      cases i with
      | zero =>
        simp only [List.getElem?_cons_zero, Option.some.injEq] at hi
        subst hi
        rw [Nat.add_zero]
        constructor
        · intro k s hk
          rw [b10 _ (by simp only; omega), hcell _ (by simp only; omega)]
          exact a9 k s hk
        · intro k hk
          rw [b10 _ (by simp only; omega), hcell _ (by simp only; omega), a10 _ (by simp only; omega)]
          exact hf.blank k
      | succ i =>
        simp only [List.getElem?_cons_succ] at hi
        have := b9 i row' hi
        rwa [show t.curRow + 1 + i = t.curRow + (i + 1) by omega] at this
    · intro p hp
      rw [b10 p (by omega), hcell p (by omega)]
      exact a10 p (by omega)

theorem Fresh.empty : Fresh empty := ⟨rfl, rfl, fun _ => rfl⟩

end Verif.LayoutSpec
