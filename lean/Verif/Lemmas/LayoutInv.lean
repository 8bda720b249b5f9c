import Verif.Lemmas.LayoutText
import Verif.Lemmas.LayoutDims

/-!
# Lemmas: what the calls keep up
-/

namespace Verif.LayoutSpec
open Layout

/-! ## Spans stay inside of the table -/

/-- A cell and its span are inside of the table. -/
def Within (t : Table) (p : Nat × Nat) : Prop :=
  p.2 + (t.cell p).spanX ≤ maxCols ∧ (1 < (t.cell p).spanX → p.2 + (t.cell p).spanX ≤ t.numCols) ∧
    p.1 + (t.cell p).spanY ≤ t.numRows ∧ ((t.cell p).isSet = true → p.2 < t.numCols)

/-- Bounds that every call keeps up. -/
structure Inside (t : Table) : Prop where
  row : t.curRow < t.numRows
  col : t.curCol ≤ maxCols
  cols : t.numCols ≤ maxCols
  cell : ∀ p, p.1 < t.numRows → p.2 < maxCols → Within t p

/-- The contents of cells that matter here are the same. -/
structure SameCell (c c' : Cell) : Prop where
  text : c'.text = c.text
  height : c'.height = c.height
  width : c'.width = c.width
  spanX : c'.spanX = c.spanX
  spanY : c'.spanY = c.spanY
  isSet : c'.isSet = c.isSet
  parent : c'.parent = c.parent

theorem SameCell.rfl {c : Cell} : SameCell c c := ⟨_root_.rfl, _root_.rfl, _root_.rfl, _root_.rfl, _root_.rfl, _root_.rfl, _root_.rfl⟩

theorem SameCell.trans {a b c : Cell} (h : SameCell a b) (h' : SameCell b c) : SameCell a c :=
  ⟨h'.text.trans h.text, h'.height.trans h.height, h'.width.trans h.width, h'.spanX.trans h.spanX,
    h'.spanY.trans h.spanY, h'.isSet.trans h.isSet, h'.parent.trans h.parent⟩

/-- Only settings, positions and the number of columns are changed. -/
structure Keeps (t t' : Table) : Prop where
  rows : t'.numRows = t.numRows
  cols : t.numCols ≤ t'.numCols
  cell : ∀ p, SameCell (t.cell p) (t'.cell p)

theorem Keeps.rfl {t : Table} : Keeps t t := ⟨_root_.rfl, Nat.le_refl _, fun _ => .rfl⟩

theorem Keeps.trans {a b c : Table} (h : Keeps a b) (h' : Keeps b c) : Keeps a c :=
  ⟨h'.rows.trans h.rows, Nat.le_trans h.cols h'.cols, fun p => (h.cell p).trans (h'.cell p)⟩

theorem Within.keeps {t t' : Table} (h : Keeps t t') {p} (hp : Within t p) : Within t' p := by
  obtain ⟨h1, h2, h3, h4⟩ := hp
  have := h.cols
  rw [Within, (h.cell p).spanX, (h.cell p).spanY, (h.cell p).isSet, h.rows]
  exact ⟨h1, fun h => Nat.le_trans (h2 h) this, h3, fun h => Nat.lt_of_lt_of_le (h4 h) this⟩

theorem Inside.keeps {t t' : Table} (h : Inside t) (hk : Keeps t t') (hr : t'.curRow < t'.numRows)
    (hc : t'.curCol ≤ maxCols) (hn : t'.numCols ≤ maxCols) : Inside t' :=
  ⟨hr, hc, hn, fun p hp hp' => (h.cell p (hk.rows ▸ hp) hp').keeps hk⟩

theorem setCell_keeps (t : Table) (p : Nat × Nat) {f : Cell → Cell} (hf : ∀ c, SameCell c (f c)) : Keeps t (setCell t p f) := by
  refine ⟨_root_.rfl, Nat.le_refl _, fun q => ?_⟩
  simp only [setCell, put]
  split
  · rename_i h; subst h; exact hf _
  · exact .rfl

theorem appendRow_cell (t : Table) (p : Nat × Nat) :
    (appendRow t).cell p = if p.1 = t.numRows then {} else t.cell p := _root_.rfl

theorem Within.appendRow {t : Table} {p} (hp : p.1 < t.numRows → p.2 < maxCols → Within t p)
    (h : p.1 < t.numRows + 1) (h' : p.2 < maxCols) : Within (appendRow t) p := by
  by_cases hr : p.1 = t.numRows
  · simp only [Within, appendRow_cell, if_pos hr]
    refine ⟨h', fun h => absurd h (by decide), ?_, fun h => by simp at h⟩
    rw [hr]; exact Nat.le_refl _
  · obtain ⟨h1, h2, h3, h4⟩ := hp (by omega) h'
    simp only [Within, appendRow_cell, if_neg hr]
    exact ⟨h1, h2, Nat.le_succ_of_le h3, h4⟩

theorem Inside.appendRow {t : Table} (h : Inside t) : Inside (appendRow t) :=
  ⟨Nat.lt_succ_of_lt h.row, h.col, h.cols, fun p hp hp' => .appendRow (h.cell p) hp hp'⟩

theorem appendRows_rows (n : Nat) (t : Table) : (appendRows n t).numRows = t.numRows + n ∧
    (appendRows n t).numCols = t.numCols := by
  induction n generalizing t with
  | zero => exact ⟨_root_.rfl, _root_.rfl⟩
  | succ n ih =>
    obtain ⟨h1, h2⟩ := ih (Layout.appendRow t)
    exact ⟨by rw [appendRows, h1]; show t.numRows + 1 + n = _; omega, h2⟩

theorem Inside.appendRows {t : Table} (h : Inside t) (n : Nat) : Inside (appendRows n t) := by
  induction n generalizing t with
  | zero => exact h
  | succ n ih => exact ih h.appendRow

theorem Inside.setPosition {t t' : Table} {x y} (h : Inside t) (he : setPosition x y t = .ok t') : Inside t' := by
  rw [Layout.setPosition] at he
  split at he
  · cases he
  · simp only [Res.ok.injEq] at he
    subst he
    refine (h.appendRows _).keeps ⟨_root_.rfl, Nat.le_refl _, fun _ => .rfl⟩ ?_ ?_ (h.appendRows _).cols
    · show y < (Layout.appendRows _ t).numRows
      rw [(appendRows_rows _ t).1]; omega
    · show x ≤ maxCols
      omega

theorem skipSet_le (t : Table) (r n k : Nat) : skipSet t r n k ≤ k + n := by
  induction n generalizing k with
  | zero => exact Nat.le_refl _
  | succ n ih =>
    rw [skipSet]
    split
    · have := ih (k + 1); omega
    · omega

theorem Inside.nextRow {t : Table} (h : Inside t) : Inside (nextRow t) := by
  rw [Layout.nextRow]
  split
  · rename_i hr
    refine h.keeps ⟨_root_.rfl, Nat.le_refl _, fun _ => .rfl⟩ hr ?_ h.cols
    have := skipSet_le t (t.curRow + 1) maxCols 0
    show skipSet t (t.curRow + 1) maxCols 0 ≤ maxCols
    omega
  · exact h.appendRow.keeps ⟨_root_.rfl, Nat.le_refl _, fun _ => .rfl⟩ (Nat.lt_succ_self _) (Nat.zero_le _) h.cols

/-- `add_text_cell` in one step. -/
theorem addText_ok {t t' : Table} {s} (h : addText s t = .ok t') : t.curCol < maxCols ∧ ∃ w, textWidth s = .ok w ∧
    t'.numRows = t.numRows ∧ t'.curRow = t.curRow ∧ t'.curCol ≤ maxCols ∧ t.numCols ≤ t'.numCols ∧ t.curCol < t'.numCols ∧
    (t.numCols ≤ maxCols → t'.numCols ≤ maxCols) ∧
    t'.cell = put t.cell (t.curRow, t.curCol)
      { t.cell (t.curRow, t.curCol) with isSet := true, text := s, height := textHeight s, width := w } := by
  simp only [addText] at h
  split at h
  · cases h
  · rename_i hc
    obtain ⟨w, hw, h⟩ := Res.bind_eq_ok.1 h
    simp only [Res.pure_eq, Res.ok.injEq] at h
    subst h
    refine ⟨by omega, w, hw, _root_.rfl, _root_.rfl, ?_, ?_, ?_, fun _ => ?_, _root_.rfl⟩
    · refine Nat.le_trans (skipSet_le ..) ?_
      omega
    · dsimp only [setCell]
      split <;> omega
    · dsimp only [setCell]
      split <;> omega
    · dsimp only [setCell]
      split <;> omega

theorem Inside.addText {t t' : Table} {s} (h : Inside t) (he : addText s t = .ok t') : Inside t' := by
  obtain ⟨h0, w, hw, h1, h2, h3, h4, h5, h6, h7⟩ := addText_ok he
  refine ⟨by rw [h1, h2]; exact h.row, h3, h6 h.cols, fun p hp hp' => ?_⟩
  obtain ⟨w1, w2, w3, w4⟩ := h.cell p (h1 ▸ hp) hp'
  rw [Within, h7, h1]
  by_cases e : p = (t.curRow, t.curCol)
  · subst e
    rw [put_eq]
    exact ⟨w1, fun h => Nat.le_trans (w2 h) h4, w3, fun _ => h5⟩
  · rw [put_ne _ _ e]
    exact ⟨w1, fun h => Nat.le_trans (w2 h) h4, w3, fun h => Nat.lt_of_lt_of_le (w4 h) h4⟩

theorem setVline_ok {t t' : Table} {i s} (h : setVline i s t = .ok t') : Keeps t t' ∧ t'.curRow = t.curRow ∧
    t'.curCol = t.curCol ∧ i < t'.numCols ∧ (t.numCols ≤ maxCols → t'.numCols ≤ maxCols) ∧ t'.cell = t.cell := by
  rw [setVline] at h
  split at h
  · cases h
  · simp only [Res.ok.injEq] at h
    subst h
    refine ⟨⟨_root_.rfl, ?_, fun _ => .rfl⟩, _root_.rfl, _root_.rfl, ?_, fun _ => ?_, _root_.rfl⟩
    · dsimp only
      split <;> omega
    · dsimp only
      split <;> omega
    · dsimp only
      split <;> omega

theorem Inside.setVline {t t' : Table} {i s} (h : Inside t) (he : setVline i s t = .ok t') : Inside t' := by
  obtain ⟨h1, h2, h3, _, h5, _⟩ := setVline_ok he
  exact h.keeps h1 (by rw [h2, h1.rows]; exact h.row) (h3 ▸ h.col) (h5 h.cols)

theorem setHline_keeps (t : Table) (s) : Keeps t (setHline s t) := ⟨_root_.rfl, Nat.le_refl _, fun _ => .rfl⟩

theorem Inside.setHline {t : Table} (h : Inside t) (s) : Inside (setHline s t) :=
  h.keeps (setHline_keeps t s) h.row h.col h.cols

theorem overrideLeft_ok {t t' : Table} {s} (h : overrideLeft s t = .ok t') : t.curCol < maxCols ∧ Keeps t t' ∧
    t'.curRow = t.curRow ∧ t'.curCol = t.curCol ∧ t'.numCols = t.numCols := by
  rw [overrideLeft] at h
  split at h
  · cases h
  · simp only [Res.ok.injEq] at h
    subst h
    exact ⟨by omega, ⟨_root_.rfl, Nat.le_refl _, (setCell_keeps t (t.curRow, t.curCol) (f := fun c => { c with left := some s })
      fun c => ⟨_root_.rfl, _root_.rfl, _root_.rfl, _root_.rfl, _root_.rfl, _root_.rfl, _root_.rfl⟩).cell⟩,
      _root_.rfl, _root_.rfl, _root_.rfl⟩

theorem overrideAbove_ok {t t' : Table} {s} (h : overrideAbove s t = .ok t') : t.curCol < maxCols ∧ Keeps t t' ∧
    t'.curRow = t.curRow ∧ t'.curCol = t.curCol ∧ t'.numCols = t.numCols := by
  rw [overrideAbove] at h
  split at h
  · cases h
  · simp only [Res.ok.injEq] at h
    subst h
    exact ⟨by omega, ⟨_root_.rfl, Nat.le_refl _, (setCell_keeps t (t.curRow, t.curCol) (f := fun c => { c with above := some s })
      fun c => ⟨_root_.rfl, _root_.rfl, _root_.rfl, _root_.rfl, _root_.rfl, _root_.rfl, _root_.rfl⟩).cell⟩,
      _root_.rfl, _root_.rfl, _root_.rfl⟩

theorem onCurrent_ok {t t' : Table} {f : Cell → Cell} (hf : ∀ c, SameCell c (f c)) (h : onCurrent f t = .ok t') :
    Keeps t t' ∧ t'.curRow = t.curRow ∧ t'.curCol = t.curCol ∧ t'.numCols = t.numCols := by
  rw [onCurrent] at h
  split at h
  · cases h
  · simp only [Res.ok.injEq] at h
    subst h
    exact ⟨setCell_keeps t _ hf, _root_.rfl, _root_.rfl, _root_.rfl⟩

theorem onRow_keeps (t : Table) {f : Cell → Cell} (hf : ∀ c, SameCell c (f c)) : Keeps t (onRow f t) := by
  refine ⟨_root_.rfl, Nat.le_refl _, fun p => ?_⟩
  simp only [onRow]
  split
  · exact hf _
  · exact .rfl

theorem vlinesLoop_ok {s} (n i : Nat) {t t' : Table} (h : vlinesLoop s n i t = .ok t') : Keeps t t' ∧ t'.curRow = t.curRow ∧
    t'.curCol = t.curCol ∧ (t.numCols ≤ maxCols → t'.numCols ≤ maxCols) ∧ t'.cell = t.cell := by
  induction n generalizing i t with
  | zero =>
    simp only [vlinesLoop, Res.ok.injEq] at h
    subst h
    exact ⟨.rfl, _root_.rfl, _root_.rfl, id, _root_.rfl⟩
  | succ n ih =>
    obtain ⟨t1, h1, h⟩ := Res.bind_eq_ok.1 h
    obtain ⟨a1, a2, a3, _, a5, a6⟩ := setVline_ok h1
    obtain ⟨b1, b2, b3, b4, b5⟩ := ih _ h
    exact ⟨a1.trans b1, b2.trans a2, b3.trans a3, fun h => b4 (a5 h), b5.trans a6⟩

/-! ### Spans -/

/-- The inner loop changes spans only when the span is cut. -/
theorem spanRow_frame (p : Nat × Nat) (i n j : Nat) (t : Table) :
    let t' := (spanRow p i n j t).1
    t'.numRows = t.numRows ∧ t'.numCols = t.numCols ∧ t'.curRow = t.curRow ∧ t'.curCol = t.curCol ∧
    (∀ q, (t'.cell q).spanX = (t.cell q).spanX ∧ (t'.cell q).spanY = (t.cell q).spanY ∨
      q = p ∧ (spanRow p i n j t).2 = true ∧ (t'.cell q).spanX < j + n ∧ (t'.cell q).spanY = i) ∧
    (∀ q, (t'.cell q).isSet = true → (t.cell q).isSet = true ∨ (p.2 ≤ q.2 ∧ q.2 < p.2 + j + n)) := by
  induction n generalizing j t with
  | zero => exact ⟨rfl, rfl, rfl, rfl, fun q => .inl ⟨rfl, rfl⟩, fun q h => .inl h⟩
  | succ n ih =>
    simp only [spanRow]
    split
    · obtain ⟨h1, h2, h3, h4, h5, h6⟩ := ih (j + 1) t
      refine ⟨h1, h2, h3, h4, fun q => ?_, fun q hq => ?_⟩
      · rcases h5 q with h | ⟨a, b, c, d⟩
        · exact .inl h
        · exact .inr ⟨a, b, by omega, d⟩
      · rcases h6 q hq with h | h
        · exact .inl h
        · exact .inr (by omega)
    · split
      · refine ⟨rfl, rfl, rfl, rfl, fun q => ?_, fun q hq => ?_⟩
        · by_cases e : q = p
          · subst e
            refine .inr ⟨rfl, rfl, ?_, ?_⟩ <;> simp only [setCell, put_eq]
            omega
          · simp only [setCell, put_ne _ _ e]
            exact .inl ⟨trivial, trivial⟩
        · refine .inl ?_
          by_cases e : q = p
          · subst e
            simpa only [setCell, put_eq] using hq
          · simpa only [setCell, put_ne _ _ e] using hq
      · obtain ⟨h1, h2, h3, h4, h5, h6⟩ := ih (j + 1) (setCell t (p.1 + i, p.2 + j) (adopt p i j))
        refine ⟨h1, h2, h3, h4, fun q => ?_, fun q hq => ?_⟩
        · have e : ((setCell t (p.1 + i, p.2 + j) (adopt p i j)).cell q).spanX = (t.cell q).spanX ∧
              ((setCell t (p.1 + i, p.2 + j) (adopt p i j)).cell q).spanY = (t.cell q).spanY := by
            by_cases e : q = (p.1 + i, p.2 + j)
            · subst e
              simp only [setCell, put_eq]
              exact ⟨rfl, rfl⟩
            · simp only [setCell, put_ne _ _ e]
              exact ⟨trivial, trivial⟩
          have h5 := h5 q
          rw [e.1, e.2] at h5
          rcases h5 with h | ⟨a, b, c, d⟩
          · exact .inl h
          · exact .inr ⟨a, b, by omega, d⟩
        · rcases h6 q hq with h | h
          · by_cases e : q = (p.1 + i, p.2 + j)
            · subst e
              exact .inr ⟨by simp, by simp⟩
            · simp only [setCell, put_ne _ _ e] at h
              exact .inl h
          · exact .inr (by omega)

theorem spanRows_inside (p : Nat × Nat) (sx n i : Nat) (t : Table) (hn : 0 < n) (hrow : p.1 + i < t.numRows)
    (hcol : p.2 + sx ≤ t.numCols) (hcols : t.numCols ≤ maxCols) (hsx : 0 < sx)
    (hq : ∀ q, q.1 < t.numRows → q.2 < maxCols → q ≠ p → Within t q)
    (hpx : (t.cell p).spanX ≤ sx) (hpy : (t.cell p).spanY ≤ i + n) :
    let t' := spanRows p sx n i t
    t'.numCols = t.numCols ∧ t.numRows ≤ t'.numRows ∧ t'.curRow = t.curRow ∧ t'.curCol = t.curCol ∧
      ∀ q, q.1 < t'.numRows → q.2 < maxCols → Within t' q := by
  induction n generalizing i t with
  | zero => omega
  | succ n ih =>
    obtain ⟨h1, h2, h3, h4, h5, h6⟩ := spanRow_frame p i sx 0 t
    -- cells other than `p` after the row
    have hq' : ∀ q, q.1 < t.numRows → q.2 < maxCols → q ≠ p → Within (spanRow p i sx 0 t).1 q := by
      intro q hr hc hne
      obtain ⟨w1, w2, w3, w4⟩ := hq q hr hc hne
      rcases h5 q with ⟨e1, e2⟩ | ⟨e, _⟩
      · rw [Within, e1, e2, h1, h2]
        refine ⟨w1, w2, w3, fun hs => ?_⟩
        rcases h6 q hs with hs | hs
        · exact w4 hs
        · omega
      · exact absurd e hne
    cases hs : (spanRow p i sx 0 t).2 with
    | true =>
      have e : spanRows p sx (n + 1) i t = (spanRow p i sx 0 t).1 := by
        rw [spanRows]
        split
        · rename_i h; rw [h]
        · rename_i h; rw [h] at hs; simp at hs
      rw [e]
      refine ⟨h2, by omega, h3, h4, fun q hr hc => ?_⟩
      by_cases hqp : q = p
      · subst hqp
        rw [Within, h1, h2]
        rcases h5 q with ⟨e1, e2⟩ | ⟨_, _, e3, e4⟩
        · rw [e1, e2]
          refine ⟨by omega, fun _ => by omega, ?_, fun _ => by omega⟩
          -- a span that is cut changes
          rcases Nat.lt_or_ge t.numRows (q.1 + (t.cell q).spanY) with hlt | hge
          · exfalso
            clear ih hq' hq
            -- the cut writes `i`
            have hcut : ∀ (n j : Nat) (t : Table), (spanRow q i n j t).2 = true →
                ((spanRow q i n j t).1.cell q).spanY = i := by
              intro n
              induction n with
              | zero => intro j t h; simp [spanRow] at h
              | succ n ih =>
                intro j t h
                simp only [spanRow] at h ⊢
                split at h
                · rename_i h0; rw [if_pos h0]; exact ih _ _ h
                · rename_i h0
                  rw [if_neg h0]
                  split at h
                  · rename_i h1; rw [if_pos h1]; simp only [setCell, put_eq]
                  · rename_i h1; rw [if_neg h1]; exact ih _ _ h
            have := hcut _ _ _ hs
            omega
          · exact hge
        · refine ⟨by omega, fun _ => by omega, by omega, fun _ => by omega⟩
      · exact hq' q (h1 ▸ hr) hc hqp
    | false =>
      generalize ht2 : (if n ≠ 0 ∧ (spanRow p i sx 0 t).1.numRows ≤ p.1 + i + 1 then appendRow (spanRow p i sx 0 t).1
        else (spanRow p i sx 0 t).1) = t2
      have e : spanRows p sx (n + 1) i t = spanRows p sx n (i + 1) t2 := by
        rw [spanRows]
        split
        · rename_i h; rw [h] at hs; simp at hs
        · rename_i t' h; rw [← ht2, h]
      have hp5 : ((spanRow p i sx 0 t).1.cell p).spanX = (t.cell p).spanX ∧
          ((spanRow p i sx 0 t).1.cell p).spanY = (t.cell p).spanY := by
        rcases h5 p with h | ⟨_, h, _⟩
        · exact h
        · rw [hs] at h; simp at h
      have f : t2.numCols = t.numCols ∧ t.numRows ≤ t2.numRows ∧ t2.curRow = t.curRow ∧ t2.curCol = t.curCol ∧
          (n ≠ 0 → p.1 + (i + 1) < t2.numRows) ∧ (t2.cell p).spanX = (t.cell p).spanX ∧
          (t2.cell p).spanY = (t.cell p).spanY ∧
          ∀ q, q.1 < t2.numRows → q.2 < maxCols → q ≠ p → Within t2 q := by
        by_cases ha : n ≠ 0 ∧ (spanRow p i sx 0 t).1.numRows ≤ p.1 + i + 1
        · rw [if_pos ha] at ht2
          subst ht2
          have hne : ¬ p.1 = (spanRow p i sx 0 t).1.numRows := by omega
          refine ⟨h2, ?_, h3, h4, fun _ => ?_, ?_, ?_, fun q hr hc hne => ?_⟩
          · show t.numRows ≤ (spanRow p i sx 0 t).1.numRows + 1
            omega
          · show p.1 + (i + 1) < (spanRow p i sx 0 t).1.numRows + 1
            omega
          · rw [appendRow_cell, if_neg hne, hp5.1]
          · rw [appendRow_cell, if_neg hne, hp5.2]
          · exact .appendRow (fun hr' hc' => hq' q (h1 ▸ hr') hc' hne) hr hc
        · rw [if_neg ha] at ht2
          subst ht2
          exact ⟨h2, by omega, h3, h4, fun h => by omega, hp5.1, hp5.2, fun q hr hc hne => hq' q (h1 ▸ hr) hc hne⟩
      obtain ⟨f1, f2, f3, f4, f5, f6, f7, f8⟩ := f
      rw [e]
      rcases Nat.eq_zero_or_pos n with rfl | hn'
      · refine ⟨f1, f2, f3, f4, fun q hr hc => ?_⟩
        by_cases hqp : q = p
        · subst hqp
          show Within t2 q
          rw [Within, f6, f7, f1]
          refine ⟨by omega, fun _ => by omega, by omega, fun _ => by omega⟩
        · exact f8 q hr hc hqp
      · obtain ⟨g1, g2, g3, g4, g5⟩ := ih (i + 1) t2 hn' (f5 (by omega)) (by omega) (by omega) f8 (by omega) (by omega)
        exact ⟨g1.trans f1, Nat.le_trans f2 g2, g3.trans f3, g4.trans f4, g5⟩

theorem setSpan_ok {t t' : Table} {sx sy} (h : setSpan sx sy t = .ok t') : sx ≠ 0 ∧ sy ≠ 0 ∧ t.curCol + sx ≤ maxCols ∧
    (t.cell (t.curRow, t.curCol)).spanX = 1 ∧ (t.cell (t.curRow, t.curCol)).spanY = 1 ∧
    t' = spanRows (t.curRow, t.curCol) sx sy 0
      { setCell t (t.curRow, t.curCol) fun c => { c with spanX := sx, spanY := sy } with
        numCols := max (t.curCol + sx) t.numCols } := by
  simp only [setSpan] at h
  split at h
  · cases h
  · rename_i hc
    simp only [not_or, Nat.not_lt] at hc
    obtain ⟨h1, h2, h3, h4, h5⟩ := hc
    simp only [Res.ok.injEq] at h
    exact ⟨h1, h2, h3, not_not.1 h4, not_not.1 h5, h.symm⟩

theorem Inside.setSpan {t t' : Table} {sx sy} (h : Inside t) (he : setSpan sx sy t = .ok t') : Inside t' := by
  obtain ⟨h1, h2, h3, _, _, rfl⟩ := setSpan_ok he
  have hr := h.row
  have hc := h.cols
  have hcell : ∀ q, q ≠ (t.curRow, t.curCol) →
      (put t.cell (t.curRow, t.curCol) { t.cell (t.curRow, t.curCol) with spanX := sx, spanY := sy }) q = t.cell q :=
    fun q hq => put_ne _ _ hq
  obtain ⟨g1, g2, g3, g4, g5⟩ := spanRows_inside (t.curRow, t.curCol) sx sy 0
    { setCell t (t.curRow, t.curCol) fun c => { c with spanX := sx, spanY := sy } with
        numCols := max (t.curCol + sx) t.numCols } (by omega) hr (Nat.le_max_left _ _) (Nat.max_le.2 ⟨h3, hc⟩) (by omega)
    (fun q hq hq' hne => by
      obtain ⟨w1, w2, w3, w4⟩ := h.cell q hq hq'
      simp only [Within, setCell, hcell q hne]
      exact ⟨w1, fun h => Nat.le_trans (w2 h) (Nat.le_max_right _ _), w3, fun h => Nat.lt_of_lt_of_le (w4 h) (Nat.le_max_right _ _)⟩)
    (by simp only [setCell, put_eq]; exact Nat.le_refl _) (by simp only [setCell, put_eq]; omega)
  refine ⟨?_, ?_, ?_, g5⟩
  · rw [g3]; exact Nat.lt_of_lt_of_le hr g2
  · rw [g4]; exact h.col
  · rw [g1]; exact Nat.max_le.2 ⟨h3, hc⟩

theorem SameCell.hAlign (c : Cell) (a) : SameCell c { c with hAlign := a } := ⟨_root_.rfl, _root_.rfl, _root_.rfl, _root_.rfl, _root_.rfl, _root_.rfl, _root_.rfl⟩
theorem SameCell.vAlign (c : Cell) (a) : SameCell c { c with vAlign := a } := ⟨_root_.rfl, _root_.rfl, _root_.rfl, _root_.rfl, _root_.rfl, _root_.rfl, _root_.rfl⟩

theorem makeBoxed_ok {s} {t t' : Table} (h : makeBoxed s t = .ok t') : ∃ t1 t2 t3 t4, setPosition 0 0 t = .ok t1 ∧
    setVline 0 s t1 = .ok t2 ∧ setPosition (setHline s t2).numCols ((setHline s t2).numRows - 1) (setHline s t2) = .ok t3 ∧
    setVline t3.numCols s t3 = .ok t4 ∧ t' = setHline s t4 := by
  obtain ⟨t1, h1, h⟩ := Res.bind_eq_ok.1 h
  obtain ⟨t2, h2, h⟩ := Res.bind_eq_ok.1 h
  obtain ⟨t3, h3, h⟩ := Res.bind_eq_ok.1 h
  obtain ⟨t4, h4, h⟩ := Res.bind_eq_ok.1 h
  simp only [Res.pure_eq, Res.ok.injEq] at h
  exact ⟨t1, t2, t3, t4, h1, h2, h3, h4, h.symm⟩

theorem Inside.call {t t' : Table} {c : Call} (h : Inside t) (he : call c t = .ok t') : Inside t' := by
  have keep : ∀ {t' : Table}, Keeps t t' ∧ t'.curRow = t.curRow ∧ t'.curCol = t.curCol ∧ t'.numCols = t.numCols → Inside t' := by
    rintro t' ⟨h1, h2, h3, h4⟩
    exact h.keeps h1 (by rw [h2, h1.rows]; exact h.row) (h3 ▸ h.col) (h4 ▸ h.cols)
  cases c with
  | setPosition x y => exact h.setPosition he
  | nextRow => cases he; exact h.nextRow
  | add s => exact h.addText he
  | setAligns hs vs =>
    simp only [Layout.call, setAligns] at he
    split at he
    · cases he
    · simp only [Res.ok.injEq] at he
      subst he
      exact keep ⟨⟨_root_.rfl, Nat.le_refl _, fun _ => .rfl⟩, _root_.rfl, _root_.rfl, _root_.rfl⟩
  | overrideH a => exact keep (onCurrent_ok (fun c => .hAlign c _) he)
  | overrideV a => exact keep (onCurrent_ok (fun c => .vAlign c _) he)
  | overrideHRow a => cases he; exact keep ⟨onRow_keeps t fun c => .hAlign c _, _root_.rfl, _root_.rfl, _root_.rfl⟩
  | overrideVRow a => cases he; exact keep ⟨onRow_keeps t fun c => .vAlign c _, _root_.rfl, _root_.rfl, _root_.rfl⟩
  | setHline s => cases he; exact h.setHline s
  | setVline i s => exact h.setVline he
  | makeBoxed s =>
    obtain ⟨t1, t2, t3, t4, h1, h2, h3, h4, rfl⟩ := makeBoxed_ok he
    exact ((((h.setPosition h1).setVline h2).setHline s).setPosition h3 |>.setVline h4).setHline s
  | setAllVlines s =>
    obtain ⟨h1, h2, h3, h4, _⟩ := vlinesLoop_ok _ _ he
    exact h.keeps h1 (by rw [h2, h1.rows]; exact h.row) (h3 ▸ h.col) (h4 h.cols)
  | overrideLeft s => exact keep (overrideLeft_ok he).2
  | overrideAbove s => exact keep (overrideAbove_ok he).2
  | setSpan x y => exact h.setSpan he

theorem Inside.empty : Inside empty :=
  ⟨by decide, by decide, by decide, fun p hp hp' => by
    refine ⟨hp', fun h => absurd (show 1 < 1 from h) (by decide), ?_, fun h => by cases h⟩
    exact hp⟩

theorem Inside.calls {cs : List Call} {t t' : Table} (h : Inside t) (he : calls cs t = .ok t') : Inside t' := by
  induction cs generalizing t with
  | nil =>
    simp only [Layout.calls, Res.ok.injEq] at he
    exact he ▸ h
  | cons c cs ih =>
    obtain ⟨t1, h1, he⟩ := Res.bind_eq_ok.1 he
    exact ih (h.call h1) he

end Verif.LayoutSpec
