import Verif.Lemmas.LayoutGeo
import Mathlib.Algebra.BigOperators.Group.Finset.Piecewise
import Mathlib.Algebra.Order.BigOperators.Group.Finset

/-!
# Lemmas: the counters of lines
-/

namespace Verif.LayoutSpec
open Layout

/-- The counters stand in a relation to the lines that are asked for. -/
structure Counts (R : Nat → Nat → Prop) (t : Table) : Prop where
  left : ∀ k, k < maxCols → R (leftLines t k) (t.colCounter k)
  above : ∀ r, r < t.numRows → R (aboveLines t r) (t.rowCounter r)

theorem recount_eq (old new : Border) (n : Nat) : recount old new n = n - lined old + lined new := by
  simp only [recount, lined]
  split <;> split <;> simp_all

/-- Relations that are kept up. -/
def Fair (R : Nat → Nat → Prop) : Prop := R = (· ≤ ·) ∨ R = (· = ·)

theorem Fair.zero {R} (h : Fair R) : R 0 0 := by rcases h with rfl | rfl <;> simp

theorem Fair.change {R} (h : Fair R) {a a' n o o' : Nat} (hr : R a n) (ho : o ≤ a) (e : a' + o = a + o') : R a' (n - o + o') := by
  rcases h with rfl | rfl
  · have hr : a ≤ n := hr
    show a' ≤ n - o + o'
    omega
  · have hr : a = n := hr
    show a' = n - o + o'
    omega

theorem sum_put {n i : Nat} (hi : i < n) (f g : Nat → Nat) (h : ∀ j, j ≠ i → g j = f j) :
    ∑ j ∈ Finset.range n, g j + f i = ∑ j ∈ Finset.range n, f j + g i := by
  have hm := Finset.mem_range.2 hi
  have e : ∑ j ∈ (Finset.range n).erase i, g j = ∑ j ∈ (Finset.range n).erase i, f j :=
    Finset.sum_congr rfl fun j hj => h j (Finset.ne_of_mem_erase hj)
  have e1 := Finset.add_sum_erase _ f hm
  have e2 := Finset.add_sum_erase _ g hm
  omega

theorem le_sum {n i : Nat} (hi : i < n) (f : Nat → Nat) : f i ≤ ∑ j ∈ Finset.range n, f j :=
  Finset.single_le_sum (fun _ _ => Nat.zero_le _) (Finset.mem_range.2 hi)

/-- Tables with the same lines. -/
structure SameLines (t t' : Table) : Prop where
  rows : t'.numRows = t.numRows
  left : ∀ p, (t'.cell p).left = (t.cell p).left
  above : ∀ p, (t'.cell p).above = (t.cell p).above
  rowBorder : t'.rowBorder = t.rowBorder
  rowCounter : t'.rowCounter = t.rowCounter
  colBorder : t'.colBorder = t.colBorder
  colCounter : t'.colCounter = t.colCounter

theorem Counts.same {R} {t t' : Table} (h : Counts R t) (s : SameLines t t') : Counts R t' := by
  constructor
  · intro k hk
    rw [leftLines, s.rows, s.colBorder, s.colCounter]
    simp only [s.left]
    exact h.left k hk
  · intro r hr
    rw [aboveLines, s.rowBorder, s.rowCounter]
    simp only [s.above]
    exact h.above r (s.rows ▸ hr)

theorem Counts.appendRow {R} (hR : Fair R) {t : Table} (h : Counts R t) : Counts R (appendRow t) := by
  constructor
  · intro k hk
    have := h.left k hk
    have e : leftLines (Layout.appendRow t) k = leftLines t k := by
      rw [leftLines, leftLines]
      show ∑ r ∈ Finset.range (t.numRows + 1), _ + _ = _
      rw [Finset.sum_range_succ, appendRow_cell, if_pos rfl]
      have : ∑ r ∈ Finset.range t.numRows, lined (((Layout.appendRow t).cell (r, k)).left.getD .none) =
          ∑ r ∈ Finset.range t.numRows, lined ((t.cell (r, k)).left.getD .none) :=
        Finset.sum_congr rfl fun r hr => by
          rw [appendRow_cell, if_neg (by have := Finset.mem_range.1 hr; simp only; omega)]
      rw [this]
      rfl
    rw [e]
    exact this
  · intro r hr
    have hr : r < t.numRows + 1 := hr
    by_cases e : r = t.numRows
    · subst e
      have h1 : (Layout.appendRow t).rowCounter t.numRows = 0 := put_eq _ _ _
      have h2 : aboveLines (Layout.appendRow t) t.numRows = 0 := by
        rw [aboveLines]
        have h3 : (Layout.appendRow t).rowBorder t.numRows = .none := put_eq _ _ _
        rw [h3, Finset.sum_eq_zero (fun k _ => by rw [appendRow_cell, if_pos rfl]; rfl)]
        rfl
      rw [h1, h2]
      exact hR.zero
    · have h1 : (Layout.appendRow t).rowCounter r = t.rowCounter r := put_ne _ _ e
      have h2 : aboveLines (Layout.appendRow t) r = aboveLines t r := by
        rw [aboveLines, aboveLines]
        have h3 : (Layout.appendRow t).rowBorder r = t.rowBorder r := put_ne _ _ e
        rw [h3, Finset.sum_congr rfl (fun k _ => by rw [appendRow_cell, if_neg e])]
      rw [h1, h2]
      exact h.above r (by omega)

theorem Counts.appendRows {R} (hR : Fair R) (n : Nat) {t : Table} (h : Counts R t) : Counts R (appendRows n t) := by
  induction n generalizing t with
  | zero => exact h
  | succ n ih => exact ih (h.appendRow hR)

theorem Counts.setPosition {R} (hR : Fair R) {t t' : Table} {x y} (h : Counts R t) (he : setPosition x y t = .ok t') : Counts R t' := by
  rw [Layout.setPosition] at he
  split at he
  · cases he
  · simp only [Res.ok.injEq] at he
    subst he
    exact (h.appendRows hR _).same ⟨rfl, fun _ => rfl, fun _ => rfl, rfl, rfl, rfl, rfl⟩

theorem Counts.setHline {R} (hR : Fair R) {t : Table} (h : Counts R t) (s : Border) : Counts R (setHline s t) := by
  constructor
  · exact h.left
  · intro r hr
    have := h.above r hr
    by_cases e : r = t.curRow
    · subst e
      have h1 : (Layout.setHline s t).rowCounter t.curRow = recount (t.rowBorder t.curRow) s (t.rowCounter t.curRow) := put_eq _ _ _
      rw [h1, recount_eq]
      refine hR.change this (by rw [aboveLines]; omega) ?_
      rw [aboveLines, aboveLines]
      have h3 : (Layout.setHline s t).rowBorder t.curRow = s := put_eq _ _ _
      rw [h3]
      show ∑ k ∈ Finset.range maxCols, lined ((t.cell (t.curRow, k)).above.getD .none) + _ + _ = _
      omega
    · have h1 : (Layout.setHline s t).rowCounter r = t.rowCounter r := put_ne _ _ e
      have h3 : (Layout.setHline s t).rowBorder r = t.rowBorder r := put_ne _ _ e
      rw [h1, aboveLines, h3]
      exact this

theorem Counts.setVline {R} (hR : Fair R) {t t' : Table} {i : Nat} {s : Border} (h : Counts R t) (he : setVline i s t = .ok t') :
    Counts R t' := by
  rw [Layout.setVline] at he
  split at he
  · cases he
  · simp only [Res.ok.injEq] at he
    subst he
    constructor
    · intro k hk
      have := h.left k hk
      by_cases e : k = i
      · subst e
        show R _ (put t.colCounter k _ k)
        rw [put_eq, recount_eq]
        refine hR.change this (by rw [leftLines]; omega) ?_
        rw [leftLines, leftLines]
        show ∑ r ∈ Finset.range t.numRows, lined ((t.cell (r, k)).left.getD .none) + lined (put t.colBorder k s k) + _ = _
        rw [put_eq]
        omega
      · show R _ (put t.colCounter i _ k)
        rw [put_ne _ _ e, leftLines]
        show R (_ + lined (put t.colBorder i s k)) _
        rw [put_ne _ _ e]
        exact this
    · exact h.above

theorem Counts.overrideLeft {R} (hR : Fair R) {t t' : Table} {s : Border} (hr : t.curRow < t.numRows) (h : Counts R t)
    (he : overrideLeft s t = .ok t') : Counts R t' := by
  rw [Layout.overrideLeft] at he
  split at he
  · cases he
  · simp only [Res.ok.injEq] at he
    subst he
    constructor
    · intro k hk
      have := h.left k hk
      by_cases e : k = t.curCol
      · subst e
        show R _ (put t.colCounter t.curCol _ t.curCol)
        rw [put_eq, recount_eq]
        have hs := sum_put hr (fun r => lined ((t.cell (r, t.curCol)).left.getD .none))
          (fun r => lined (((setCell t (t.curRow, t.curCol) fun c => { c with left := some s }).cell (r, t.curCol)).left.getD .none))
          (fun r hr => by
            rw [setCell_ne _ _ (fun e => hr (congrArg Prod.fst e))])
        have hl := le_sum hr (fun r => lined ((t.cell (r, t.curCol)).left.getD .none))
        simp only [setCell_eq, Option.getD_some] at hs hl
        refine hR.change this (by rw [leftLines]; omega) ?_
        rw [leftLines, leftLines]
        show ∑ r ∈ Finset.range t.numRows, lined (((setCell t (t.curRow, t.curCol) fun c => { c with left := some s }).cell
          (r, t.curCol)).left.getD .none) + lined (t.colBorder t.curCol) + _ = _
        omega
      · show R _ (put t.colCounter t.curCol _ k)
        rw [put_ne _ _ e, leftLines]
        have : ∑ r ∈ Finset.range t.numRows, lined (((setCell t (t.curRow, t.curCol) fun c => { c with left := some s }).cell
          (r, k)).left.getD .none) = ∑ r ∈ Finset.range t.numRows, lined ((t.cell (r, k)).left.getD .none) :=
          Finset.sum_congr rfl fun r _ => by rw [setCell_ne _ _ (fun x => e (congrArg Prod.snd x))]
        show R (∑ r ∈ Finset.range t.numRows, lined (((setCell t (t.curRow, t.curCol) fun c => { c with left := some s }).cell
          (r, k)).left.getD .none) + lined (t.colBorder k)) _
        rw [this]
        exact h.left k hk
    · intro r hr
      have := h.above r hr
      rw [aboveLines] at this ⊢
      have e : ∑ k ∈ Finset.range maxCols, lined (((setCell t (t.curRow, t.curCol) fun c => { c with left := some s }).cell
          (r, k)).above.getD .none) = ∑ k ∈ Finset.range maxCols, lined ((t.cell (r, k)).above.getD .none) :=
        Finset.sum_congr rfl fun k _ => by
          by_cases e : (r, k) = (t.curRow, t.curCol)
          · rw [e, setCell_eq]
          · rw [setCell_ne _ _ e]
      show R (∑ k ∈ Finset.range maxCols, lined (((setCell t (t.curRow, t.curCol) fun c => { c with left := some s }).cell
          (r, k)).above.getD .none) + lined (t.rowBorder r)) _
      rw [e]
      exact this

theorem Counts.overrideAbove {R} (hR : Fair R) {t t' : Table} {s : Border} (h : Counts R t)
    (he : overrideAbove s t = .ok t') : Counts R t' := by
  rw [Layout.overrideAbove] at he
  split at he
  · cases he
  · rename_i hc
    have hc : t.curCol < maxCols := by omega
    simp only [Res.ok.injEq] at he
    subst he
    constructor
    · intro k hk
      have := h.left k hk
      rw [leftLines] at this ⊢
      have e : ∑ r ∈ Finset.range t.numRows, lined (((setCell t (t.curRow, t.curCol) fun c => { c with above := some s }).cell
          (r, k)).left.getD .none) = ∑ r ∈ Finset.range t.numRows, lined ((t.cell (r, k)).left.getD .none) :=
        Finset.sum_congr rfl fun r _ => by
          by_cases e : (r, k) = (t.curRow, t.curCol)
          · rw [e, setCell_eq]
          · rw [setCell_ne _ _ e]
      show R (∑ r ∈ Finset.range t.numRows, lined (((setCell t (t.curRow, t.curCol) fun c => { c with above := some s }).cell
          (r, k)).left.getD .none) + lined (t.colBorder k)) _
      rw [e]
      exact this
    · intro r hr
      have := h.above r hr
      by_cases e : r = t.curRow
      · subst e
        show R _ (put t.rowCounter t.curRow _ t.curRow)
        rw [put_eq, recount_eq]
        have hs := sum_put hc (fun k => lined ((t.cell (t.curRow, k)).above.getD .none))
          (fun k => lined (((setCell t (t.curRow, t.curCol) fun c => { c with above := some s }).cell (t.curRow, k)).above.getD .none))
          (fun k hk => by
            rw [setCell_ne _ _ (fun e => hk (congrArg Prod.snd e))])
        have hl := le_sum hc (fun k => lined ((t.cell (t.curRow, k)).above.getD .none))
        simp only [setCell_eq, Option.getD_some] at hs hl
        refine hR.change this (by rw [aboveLines]; omega) ?_
        rw [aboveLines, aboveLines]
        show ∑ k ∈ Finset.range maxCols, lined (((setCell t (t.curRow, t.curCol) fun c => { c with above := some s }).cell
          (t.curRow, k)).above.getD .none) + lined (t.rowBorder t.curRow) + _ = _
        omega
      · show R _ (put t.rowCounter t.curRow _ r)
        rw [put_ne _ _ e, aboveLines]
        have : ∑ k ∈ Finset.range maxCols, lined (((setCell t (t.curRow, t.curCol) fun c => { c with above := some s }).cell
          (r, k)).above.getD .none) = ∑ k ∈ Finset.range maxCols, lined ((t.cell (r, k)).above.getD .none) :=
          Finset.sum_congr rfl fun k _ => by rw [setCell_ne _ _ (fun x => e (congrArg Prod.fst x))]
        show R (∑ k ∈ Finset.range maxCols, lined (((setCell t (t.curRow, t.curCol) fun c => { c with above := some s }).cell
          (r, k)).above.getD .none) + lined (t.rowBorder r)) _
        rw [this]
        exact h.above r hr

/-! ### Spans remove lines -/

theorem Counts.setCell {t : Table} (h : Counts (· ≤ ·) t) (p : Nat × Nat) {f : Cell → Cell}
    (hf : ∀ c, ((f c).left = c.left ∨ (f c).left = some .none) ∧ ((f c).above = c.above ∨ (f c).above = some .none)) :
    Counts (· ≤ ·) (setCell t p f) := by
  have less : ∀ q, lined (((Layout.setCell t p f).cell q).left.getD .none) ≤ lined ((t.cell q).left.getD .none) ∧
      lined (((Layout.setCell t p f).cell q).above.getD .none) ≤ lined ((t.cell q).above.getD .none) := by
    intro q
    by_cases e : q = p
    · subst e
      rw [setCell_eq]
      obtain ⟨h1, h2⟩ := hf (t.cell q)
      constructor
      · rcases h1 with h1 | h1 <;> rw [h1]
        exact Nat.zero_le _
      · rcases h2 with h2 | h2 <;> rw [h2]
        exact Nat.zero_le _
    · rw [setCell_ne _ _ e]; exact ⟨Nat.le_refl _, Nat.le_refl _⟩
  constructor
  · intro k hk
    refine Nat.le_trans ?_ (h.left k hk)
    exact Nat.add_le_add_right (Finset.sum_le_sum fun r _ => (less _).1) _
  · intro r hr
    refine Nat.le_trans ?_ (h.above r hr)
    exact Nat.add_le_add_right (Finset.sum_le_sum fun k _ => (less _).2) _

theorem Counts.spanRow (p : Nat × Nat) (i n j : Nat) {t : Table} (h : Counts (· ≤ ·) t) :
    Counts (· ≤ ·) (spanRow p i n j t).1 := by
  induction n generalizing j t with
  | zero => exact h
  | succ n ih =>
    rw [Layout.spanRow]
    split
    · exact ih _ h
    · split
      · exact h.setCell p (f := fun c => { c with spanY := i, spanX := j }) fun c => ⟨.inl rfl, .inl rfl⟩
      · refine ih _ (h.setCell _ fun c => ⟨?_, ?_⟩)
        · simp only [adopt]; split <;> simp
        · simp only [adopt]; split <;> simp

theorem Counts.spanRows (p : Nat × Nat) (sx n i : Nat) {t : Table} (h : Counts (· ≤ ·) t) :
    Counts (· ≤ ·) (spanRows p sx n i t) := by
  induction n generalizing i t with
  | zero => exact h
  | succ n ih =>
    have h1 := h.spanRow p i sx 0
    rw [Layout.spanRows]
    generalize Layout.spanRow p i sx 0 t = x at h1
    obtain ⟨t', b⟩ := x
    cases b with
    | true => exact h1
    | false =>
      simp only
      split
      · exact ih _ (h1.appendRow (.inl rfl))
      · exact ih _ h1

/-! ### All calls -/

theorem Counts.vlinesLoop {R} (hR : Fair R) {s : Border} (n i : Nat) {t t' : Table} (h : Counts R t)
    (he : vlinesLoop s n i t = .ok t') : Counts R t' := by
  induction n generalizing i t with
  | zero =>
    simp only [Layout.vlinesLoop, Res.ok.injEq] at he
    exact he ▸ h
  | succ n ih =>
    obtain ⟨t1, h1, he⟩ := Res.bind_eq_ok.1 he
    exact ih _ (h.setVline hR h1) he

theorem Counts.onCurrent {R} {t t' : Table} {f : Cell → Cell} (hf : ∀ c, (f c).left = c.left ∧ (f c).above = c.above) (h : Counts R t)
    (he : onCurrent f t = .ok t') : Counts R t' := by
  rw [Layout.onCurrent] at he
  split at he
  · cases he
  · simp only [Res.ok.injEq] at he
    subst he
    refine h.same ⟨rfl, fun p => ?_, fun p => ?_, rfl, rfl, rfl, rfl⟩
    · by_cases e : p = (t.curRow, t.curCol)
      · subst e; rw [setCell_eq]; exact (hf _).1
      · rw [setCell_ne _ _ e]
    · by_cases e : p = (t.curRow, t.curCol)
      · subst e; rw [setCell_eq]; exact (hf _).2
      · rw [setCell_ne _ _ e]

theorem Counts.onRow {R} {t : Table} {f : Cell → Cell} (hf : ∀ c, (f c).left = c.left ∧ (f c).above = c.above) (h : Counts R t) :
    Counts R (onRow f t) := by
  refine h.same ⟨rfl, fun p => ?_, fun p => ?_, rfl, rfl, rfl, rfl⟩
  · simp only [Layout.onRow]
    split
    · exact (hf _).1
    · rfl
  · simp only [Layout.onRow]
    split
    · exact (hf _).2
    · rfl

/-- Calls keep up the relation; equality is kept up if nothing is spanned. -/
theorem Counts.call {R} (hR : Fair R) {t t' : Table} {c : Call} (hi : Inside t) (h : Counts R t) (he : call c t = .ok t')
    (hc : R = (· ≤ ·) ∨ ∀ x y, c ≠ .setSpan x y) : Counts R t' := by
  cases c with
  | setPosition x y => exact h.setPosition hR he
  | nextRow =>
    simp only [Layout.call, nextRow, Res.ok.injEq] at he
    subst he
    split
    · exact h.same ⟨rfl, fun _ => rfl, fun _ => rfl, rfl, rfl, rfl, rfl⟩
    · exact (h.appendRow hR).same ⟨rfl, fun _ => rfl, fun _ => rfl, rfl, rfl, rfl, rfl⟩
  | add s =>
    simp only [Layout.call, addText] at he
    split at he
    · cases he
    · obtain ⟨w, hw, he⟩ := Res.bind_eq_ok.1 he
      simp only [Res.pure_eq, Res.ok.injEq] at he
      subst he
      refine h.same ⟨rfl, fun p => ?_, fun p => ?_, rfl, rfl, rfl, rfl⟩
      · show ((Layout.setCell t (t.curRow, t.curCol) fun c =>
          { c with isSet := true, text := s, height := textHeight s, width := w }).cell p).left = _
        by_cases e : p = (t.curRow, t.curCol)
        · subst e; rw [setCell_eq]
        · rw [setCell_ne _ _ e]
      · show ((Layout.setCell t (t.curRow, t.curCol) fun c =>
          { c with isSet := true, text := s, height := textHeight s, width := w }).cell p).above = _
        by_cases e : p = (t.curRow, t.curCol)
        · subst e; rw [setCell_eq]
        · rw [setCell_ne _ _ e]
  | setAligns hs vs =>
    simp only [Layout.call, setAligns] at he
    split at he
    · cases he
    · simp only [Res.ok.injEq] at he
      subst he
      exact h.same ⟨rfl, fun _ => rfl, fun _ => rfl, rfl, rfl, rfl, rfl⟩
  | overrideH a => exact h.onCurrent (f := fun c => { c with hAlign := some a }) (fun c => ⟨rfl, rfl⟩) he
  | overrideV a => exact h.onCurrent (f := fun c => { c with vAlign := some a }) (fun c => ⟨rfl, rfl⟩) he
  | overrideHRow a => cases he; exact h.onRow (f := fun c => { c with hAlign := some a }) fun c => ⟨rfl, rfl⟩
  | overrideVRow a => cases he; exact h.onRow (f := fun c => { c with vAlign := some a }) fun c => ⟨rfl, rfl⟩
  | setHline s => cases he; exact h.setHline hR s
  | setVline i s => exact h.setVline hR he
  | makeBoxed s =>
    obtain ⟨t1, t2, t3, t4, h1, h2, h3, h4, rfl⟩ := makeBoxed_ok he
    exact ((((h.setPosition hR h1).setVline hR h2).setHline hR s |>.setPosition hR h3).setVline hR h4).setHline hR s
  | setAllVlines s => exact h.vlinesLoop hR _ _ he
  | overrideLeft s => exact h.overrideLeft hR hi.row he
  | overrideAbove s => exact h.overrideAbove hR he
  | setSpan x y =>
    rcases hc with rfl | hc
    · simp only [Layout.call, setSpan] at he
      split at he
      · cases he
      · simp only [Res.ok.injEq] at he
        subst he
        refine Counts.spanRows _ _ _ _ ?_
        exact (h.setCell (t.curRow, t.curCol) (f := fun c => { c with spanX := x, spanY := y })
          fun c => ⟨.inl rfl, .inl rfl⟩).same ⟨rfl, fun _ => rfl, fun _ => rfl, rfl, rfl, rfl, rfl⟩
    · exact absurd rfl (hc x y)

theorem Counts.empty {R} (hR : Fair R) : Counts R empty := by
  have := hR.zero
  constructor
  · intro k _
    show R _ 0
    have : leftLines Layout.empty k = 0 := by simp [leftLines, Layout.empty, lined]
    rw [this]; assumption
  · intro r _
    show R _ 0
    have : aboveLines Layout.empty r = 0 := by simp [aboveLines, Layout.empty, lined]
    rw [this]; assumption

theorem Counts.calls {R} (hR : Fair R) {cs : List Call} (hc : R = (· ≤ ·) ∨ ∀ c ∈ cs, ∀ x y, c ≠ .setSpan x y) {t t' : Table}
    (hi : Inside t) (h : Counts R t) (he : calls cs t = .ok t') : Counts R t' := by
  induction cs generalizing t with
  | nil =>
    simp only [Layout.calls, Res.ok.injEq] at he
    exact he ▸ h
  | cons c cs ih =>
    obtain ⟨t1, h1, he⟩ := Res.bind_eq_ok.1 he
    exact ih (hc.imp_right fun hc c hm => hc c (List.mem_cons_of_mem _ hm)) (hi.call h1)
      (h.call hR hi h1 (hc.imp_right fun hc => hc c List.mem_cons_self)) he

end Verif.LayoutSpec
