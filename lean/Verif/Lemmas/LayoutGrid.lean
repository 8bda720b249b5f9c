import Verif.Lemmas.LayoutShown
import Verif.Lemmas.LayoutCount

/-!
# Lemmas: exact output of tables without spans
-/

namespace Verif.LayoutSpec
open Layout TextSpec

/-! ### Characters -/

theorem lookup_single (a b c d : Border) :
    matrixSingle[borderLookup[(if a ≠ .none then 1 else 0) + (if b ≠ .none then 2 else 0) + (if c ≠ .none then 4 else 0) +
      (if d ≠ .none then 8 else 0)]?.getD 11]?.getD ' ' =
    singleChar (decide (a ≠ .none)) (decide (b ≠ .none)) (decide (c ≠ .none)) (decide (d ≠ .none)) := by
  cases a <;> cases b <;> cases c <;> cases d <;> rfl

theorem lookup_double (a b c d : Border) :
    matrixDouble[borderLookup[(if a ≠ .none then 1 else 0) + (if b ≠ .none then 2 else 0) + (if c ≠ .none then 4 else 0) +
      (if d ≠ .none then 8 else 0)]?.getD 11]?.getD ' ' =
    doubleChar (decide (a ≠ .none)) (decide (b ≠ .none)) (decide (c ≠ .none)) (decide (d ≠ .none)) := by
  cases a <;> cases b <;> cases c <;> cases d <;> rfl

theorem utf8_single (a b c d : Bool) : utf8 (singleChar a b c d) = bytes (singleChar a b c d) := by
  cases a <;> cases b <;> cases c <;> cases d <;> decide +kernel

theorem utf8_double (a b c d : Bool) : utf8 (doubleChar a b c d) = bytes (doubleChar a b c d) := by
  cases a <;> cases b <;> cases c <;> cases d <;> decide +kernel

theorem junction_eq (a b c d : Border) :
    glyph (if [a, b, c, d].count .double > [a, b, c, d].count .single then matrixDouble else matrixSingle)
      (borderLookup[(if a ≠ .none then 1 else 0) + (if b ≠ .none then 2 else 0) + (if c ≠ .none then 4 else 0) +
      (if d ≠ .none then 8 else 0)]?.getD 11) = bytes (junctionChar a b c d) := by
  rw [glyph, junctionChar]
  by_cases h : [a, b, c, d].count .double > [a, b, c, d].count .single
  · rw [if_pos h, if_pos h, lookup_double, utf8_double]
  · rw [if_neg h, if_neg h, lookup_single, utf8_single]

theorem vline_eq (b : Border) : vline b = bytes (downChar b) := by
  cases b <;> decide +kernel

theorem repeated_eq (s : Str) (n : Nat) : repeated s n = (List.replicate n s).flatten := by
  induction n with
  | zero => rfl
  | succ n ih => rw [repeated, ih, List.replicate_succ, List.flatten_cons]

theorem hline_eq (b : Border) (n : Nat) : hline b n = (List.replicate n (bytes (acrossChar b))).flatten := by
  have h0 : [' '] = bytes (acrossChar .none) := by decide +kernel
  have h1 : glyph matrixSingle 9 = bytes (acrossChar .single) := by decide +kernel
  have h2 : glyph matrixDouble 9 = bytes (acrossChar .double) := by decide +kernel
  cases b with
  | none => rw [hline, repeated_eq, h0]
  | single => rw [hline, repeated_eq, h1]
  | double => rw [hline, repeated_eq, h2]

/-! ### Removal of lines -/

theorem dropAbove_exact (n r : Nat) (t : Table) (hc : t.curCol < maxCols) : ∃ t', dropAbove n r t = .ok t' ∧
    (∀ p, t'.cell p = if r ≤ p.1 ∧ p.1 < r + n ∧ p.2 = t.curCol then { t.cell p with above := some .none } else t.cell p) ∧
    t'.numRows = t.numRows ∧ t'.numCols = t.numCols ∧ t'.rowBorder = t.rowBorder ∧ t'.colBorder = t.colBorder ∧
    t'.curRow = (if n = 0 then t.curRow else r + n - 1) ∧ t'.curCol = t.curCol ∧
    (∀ R, Fair R → Counts R t → Counts R t') := by
  induction n generalizing r t with
  | zero => exact ⟨t, rfl, fun p => by rw [if_neg (by omega)], rfl, rfl, rfl, rfl, rfl, rfl, fun R _ h => h⟩
  | succ n ih =>
    have e : ∃ t1, overrideAbove .none { t with curRow := r } = .ok t1 ∧ t1.curCol = t.curCol ∧ t1.curRow = r ∧
        t1.cell = (setCell t (r, t.curCol) fun c => { c with above := some .none }).cell ∧
        t1.numRows = t.numRows ∧ t1.numCols = t.numCols ∧ t1.rowBorder = t.rowBorder ∧ t1.colBorder = t.colBorder := by
      rw [overrideAbove, if_neg (show ¬ maxCols ≤ t.curCol by omega)]
      exact ⟨_, rfl, rfl, rfl, rfl, rfl, rfl, rfl, rfl⟩
    obtain ⟨t1, e1, a1, a2, a3, a4, a5, a6, a7⟩ := e
    obtain ⟨t', e', b1, b2, b3, b4, b5, b6, b7, b8⟩ := ih (r + 1) t1 (by omega)
    refine ⟨t', by rw [dropAbove, e1, Res.bind_ok, e'], fun p => ?_, b2.trans a4, b3.trans a5, b4.trans a6, b5.trans a7, ?_,
      b7.trans a1, fun R hR h => ?_⟩
    · rw [b1, a3, a1]
      by_cases e : p = (r, t.curCol)
      · subst e
        rw [setCell_eq, if_neg (by simp only; omega), if_pos ⟨Nat.le_refl _, by simp only; omega, rfl⟩]
      · rw [setCell_ne _ _ e]
        by_cases h : r + 1 ≤ p.1 ∧ p.1 < r + 1 + n ∧ p.2 = t.curCol
        · rw [if_pos h, if_pos ⟨by omega, by omega, h.2.2⟩]
        · rw [if_neg h, if_neg (fun h' => h ?_)]
          have : p.1 ≠ r := fun x => e (Prod.ext x h'.2.2)
          exact ⟨by omega, by omega, h'.2.2⟩
    · rw [b6, a2, if_neg (Nat.succ_ne_zero n)]
      by_cases hn : n = 0
      · rw [if_pos hn]; omega
      · rw [if_neg hn]; omega
    · exact b8 R hR ((h.same (t' := { t with curRow := r }) ⟨rfl, fun _ => rfl, fun _ => rfl, rfl, rfl, rfl, rfl⟩).overrideAbove hR e1)

theorem dropLeft_exact (n k : Nat) (t : Table) (hc : k + n ≤ maxCols) (hr : t.curRow < t.numRows) : ∃ t', dropLeft n k t = .ok t' ∧
    (∀ p, t'.cell p = if k ≤ p.2 ∧ p.2 < k + n ∧ p.1 = t.curRow then { t.cell p with left := some .none } else t.cell p) ∧
    t'.numRows = t.numRows ∧ t'.numCols = t.numCols ∧ t'.rowBorder = t.rowBorder ∧ t'.colBorder = t.colBorder ∧
    (∀ R, Fair R → Counts R t → Counts R t') := by
  induction n generalizing k t with
  | zero => exact ⟨t, rfl, fun p => by rw [if_neg (by omega)], rfl, rfl, rfl, rfl, fun R _ h => h⟩
  | succ n ih =>
    have e : ∃ t1, overrideLeft .none { t with curCol := k } = .ok t1 ∧ t1.curRow = t.curRow ∧
        t1.cell = (setCell t (t.curRow, k) fun c => { c with left := some .none }).cell ∧
        t1.numRows = t.numRows ∧ t1.numCols = t.numCols ∧ t1.rowBorder = t.rowBorder ∧ t1.colBorder = t.colBorder := by
      rw [overrideLeft, if_neg (show ¬ maxCols ≤ k by omega)]
      exact ⟨_, rfl, rfl, rfl, rfl, rfl, rfl, rfl⟩
    obtain ⟨t1, e1, a1, a3, a4, a5, a6, a7⟩ := e
    obtain ⟨t', e', b1, b2, b3, b4, b5, b8⟩ := ih (k + 1) t1 (by omega) (by omega)
    refine ⟨t', by rw [dropLeft, e1, Res.bind_ok, e'], fun p => ?_, b2.trans a4, b3.trans a5, b4.trans a6, b5.trans a7,
      fun R hR h => ?_⟩
    · rw [b1, a3, a1]
      by_cases e : p = (t.curRow, k)
      · subst e
        rw [setCell_eq, if_neg (by simp only; omega), if_pos ⟨Nat.le_refl _, by simp only; omega, rfl⟩]
      · rw [setCell_ne _ _ e]
        by_cases h : k + 1 ≤ p.2 ∧ p.2 < k + 1 + n ∧ p.1 = t.curRow
        · rw [if_pos h, if_pos ⟨by omega, by omega, h.2.2⟩]
        · rw [if_neg h, if_neg (fun h' => h ?_)]
          have : p.2 ≠ k := fun x => e (Prod.ext h'.2.2 x)
          exact ⟨by omega, by omega, h'.2.2⟩
    · exact b8 R hR ((h.same (t' := { t with curCol := k }) ⟨rfl, fun _ => rfl, fun _ => rfl, rfl, rfl, rfl, rfl⟩).overrideLeft hR (t := { t with curCol := k }) hr e1)

/-- What the removal of superfluous lines does. -/
theorem dropLines_exact {t : Table} (hi : Inside t) (h0 : t.numCols ≠ 0) (w h : Nat → Nat) :
    ∃ t', dropLines (w (t.numCols - 1)) (h (t.numRows - 1)) t = .ok t' ∧
      (∀ r k, r < t.numRows → k < maxCols → (t'.cell (r, k)).above = ownAbove t w r k) ∧
      (∀ r k, r < t.numRows → k < t.numCols → (t'.cell (r, k)).left = ownLeft t h r k) ∧
      (∀ p, SameCell (t.cell p) (t'.cell p)) ∧
      t'.numRows = t.numRows ∧ t'.numCols = t.numCols ∧ t'.rowBorder = t.rowBorder ∧ t'.colBorder = t.colBorder ∧
      (∀ R, Fair R → Counts R t → Counts R t') := by
  have hc := hi.cols
  have hr := hi.row
  have first : ∃ t1, (if w (t.numCols - 1) = 0 then dropAbove t.numRows 0 { t with curCol := t.numCols - 1 }
      else pure { t with curRow := t.numRows - 1 }) = .ok t1 ∧
      (∀ r k, r < t.numRows → k < maxCols → (t1.cell (r, k)).above = ownAbove t w r k) ∧
      (∀ p, (t1.cell p).left = (t.cell p).left) ∧ (∀ p, SameCell (t.cell p) (t1.cell p)) ∧
      t1.numRows = t.numRows ∧ t1.numCols = t.numCols ∧ t1.rowBorder = t.rowBorder ∧ t1.colBorder = t.colBorder ∧
      t1.curRow = t.numRows - 1 ∧ (∀ R, Fair R → Counts R t → Counts R t1) := by
    by_cases hw : w (t.numCols - 1) = 0
    · rw [if_pos hw]
      obtain ⟨t1, e, b1, b2, b3, b4, b5, b6, b7, b8⟩ := dropAbove_exact t.numRows 0 { t with curCol := t.numCols - 1 }
        (show t.numCols - 1 < maxCols by omega)
      refine ⟨t1, e, fun r k hr hk => ?_, fun p => ?_, fun p => ?_, b2, b3, b4, b5, ?_, fun R hR h => ?_⟩
      · rw [b1, ownAbove]
        by_cases e : k = t.numCols - 1
        · rw [if_pos ⟨Nat.zero_le _, by simp only; omega, e⟩, if_pos ⟨hw, e⟩]
        · rw [if_neg (fun h => e h.2.2), if_neg (fun h => e h.2)]
      · rw [b1]; split <;> rfl
      · rw [b1]
        split
        · exact ⟨rfl, rfl, rfl, rfl, rfl, rfl, rfl⟩
        · exact .rfl
      · rw [b6, if_neg (by omega), Nat.zero_add]
      · exact b8 R hR (h.same ⟨rfl, fun _ => rfl, fun _ => rfl, rfl, rfl, rfl, rfl⟩)
    · rw [if_neg hw]
      refine ⟨_, rfl, fun r k hr hk => ?_, fun p => rfl, fun p => .rfl, rfl, rfl, rfl, rfl, rfl, fun R hR h =>
        h.same ⟨rfl, fun _ => rfl, fun _ => rfl, rfl, rfl, rfl, rfl⟩⟩
      rw [ownAbove, if_neg (fun h => hw h.1)]
  obtain ⟨t1, e1, a1, a2, a3, a4, a5, a6, a7, a8, a9⟩ := first
  by_cases hh : h (t.numRows - 1) = 0
  · obtain ⟨t', e', b1, b2, b3, b4, b5, b6⟩ := dropLeft_exact t1.numCols 0 t1 (by omega) (by omega)
    refine ⟨t', ?_, fun r k hr hk => ?_, fun r k hr hk => ?_, fun p => ?_, b2.trans a4, b3.trans a5, b4.trans a6, b5.trans a7,
      fun R hR h => b6 R hR (a9 R hR h)⟩
    · rw [dropLines]
      by_cases hw : w (t.numCols - 1) = 0
      · rw [if_pos hw] at e1 ⊢
        rw [e1, Res.bind_ok]; simp only; rw [if_pos hh, e']
      · rw [if_neg hw] at e1 ⊢
        rw [e1, Res.bind_ok]; simp only; rw [if_pos hh, e']
    · rw [b1, ← a1 r k hr hk]; split <;> rfl
    · rw [b1, ownLeft]
      by_cases e : r = t.numRows - 1
      · rw [if_pos ⟨Nat.zero_le _, by simp only; omega, by simp only; omega⟩, if_pos ⟨hh, e⟩]
      · rw [if_neg (fun h => e (by have := h.2.2; simp only at this; omega)), if_neg (fun h => e h.2), a2]
    · rw [b1]
      split
      · exact (a3 p).trans ⟨rfl, rfl, rfl, rfl, rfl, rfl, rfl⟩
      · exact a3 p
  · refine ⟨t1, ?_, a1, fun r k hr hk => ?_, a3, a4, a5, a6, a7, a9⟩
    · rw [dropLines]
      by_cases hw : w (t.numCols - 1) = 0
      · rw [if_pos hw] at e1 ⊢
        rw [e1, Res.bind_ok]; simp only; rw [if_neg hh]; rfl
      · rw [if_neg hw] at e1 ⊢
        rw [e1, Res.bind_ok]; simp only; rw [if_neg hh]; rfl
    · rw [ownLeft, if_neg (fun h => hh h.1), a2]

/-! ### Printing without spans -/

/-- Tables without spans in which everything fits. -/
structure Flat (t : Table) (w h : Nat → Nat) : Prop where
  cells : ∀ p, Single (t.cell p)
  texts : Texts t
  fits : ∀ r k, r < t.numRows → k < t.numCols → (t.cell (r, k)).width ≤ w k
  high : ∀ r k, r < t.numRows → k < t.numCols → (t.cell (r, k)).height ≤ h r
  small : ∀ r, r < t.numRows → h r ≤ 2 ^ 31

theorem Flat.owner {t w h} (hb : Flat t w h) (p : Nat × Nat) : owner t p = p := by
  rw [Layout.owner, (hb.cells p).2.2]; rfl

/-- A line of a text in its cell. -/
def flatText (t : Table) (w h : Nat → Nat) (r k i : Nat) : Str :=
  pad ((t.cell (r, k)).hAlign.getD (t.hAligns k)) (w k)
    (visible ((t.cell (r, k)).vAlign.getD (t.vAligns k)) (h r) (cellLines (t.cell (r, k)).text) i)

theorem sizeSub_toInt {i off : Nat} (h : off ≤ 2 ^ 31) (hi : i < 2 ^ 31) : toInt (sizeSub i off) = (i : Int) - off := by
  have h : off ≤ 2147483648 := h
  have hi : i < 2147483648 := hi
  rw [sizeSub]
  split
  · rename_i hl
    rw [toInt_small (by show _ < 2147483648; omega)]
    omega
  · rename_i hl
    show Int.bmod ((18446744073709551616 + i - off : Nat) : Int) 4294967296 = _
    have : ((18446744073709551616 + i - off : Nat) : Int) = ((i : Int) - off) + 4294967296 * 4294967296 := by omega
    rw [this, show (4294967296 : Int) * 4294967296 = ((4294967296 : Nat) : Int) * 4294967296 from rfl, Int.add_mul_bmod_self_left]
    exact Int.bmod_eq_of_le (by omega) (by omega)

theorem actualLine_eq (v : VAlign) {i h n : Nat} (hi : i < h) (hh : h ≤ 2 ^ 31) (hn : n ≤ h) :
    actualLine v i h n = (i : Int) - (match v with | .top => 0 | .center => (h - n) / 2 | .bottom => h - n : Nat) := by
  have e : sizeSub h n = h - n := if_pos hn
  cases v with
  | top => simp only [actualLine]; rw [toInt_small (by omega)]; omega
  | center => simp only [actualLine]; rw [e, sizeSub_toInt (by omega) (by omega)]
  | bottom => simp only [actualLine]; rw [e, sizeSub_toInt (by omega) (by omega)]

/-- Lines left out above a text. -/
theorem align_off (v : VAlign) {h n : Nat} (hh : h ≤ 2 ^ 31) (hn : n ≤ h) : ∃ off : Nat,
    (∀ i, i < h → actualLine v i h n = (i : Int) - off) ∧
    ∀ (ls : List Str) (i : Nat), ls.length = n → visible v h ls i = if i < off then [] else ls[i - off]?.getD [] := by
  cases v with
  | top => exact ⟨0, fun i hi => actualLine_eq .top hi hh hn, fun ls i e => by simp only [visible]⟩
  | center => exact ⟨(h - n) / 2, fun i hi => actualLine_eq .center hi hh hn, fun ls i e => by simp only [visible, e]⟩
  | bottom => exact ⟨h - n, fun i hi => actualLine_eq .bottom hi hh hn, fun ls i e => by simp only [visible, e]⟩

theorem Flat.text {t w h} (hb : Flat t w h) (li : Nat → Nat) {r k : Nat} (hr : r < t.numRows) (hk : k < t.numCols)
    (hl : li k < h r) : cellText t w h li k (r, k) = .ok (flatText t w h r k (li k)) := by
  have hw : totalWidth t w (r, k) = .ok (w k) := by
    rw [totalWidth, hb.owner, (hb.cells _).1, totalWidthLoop, if_neg (by simp only; omega), totalWidthLoop]
    simp
  have hh : totalHeight t h (r, k) = .ok (h r) := by
    rw [totalHeight, hb.owner, (hb.cells _).2.1, totalHeightLoop, if_neg (by simp only; omega), totalHeightLoop]
    simp
  have hhi := hb.high r k hr hk
  obtain ⟨h1, h2, h3, h4⟩ := hb.texts (r, k)
  rw [cellText, hw, Res.bind_ok, hh, Res.bind_ok]
  simp only [printText, hb.owner]
  rw [getVAlign, (hb.cells _).2.2]
  simp only
  obtain ⟨off, o1, o2⟩ := align_off ((t.cell (r, k)).vAlign.getD (t.vAligns k)) (hb.small r hr) hhi
  have len : (cellLines (t.cell (r, k)).text).length = (t.cell (r, k)).height := by rw [cellLines_length, h2]
  rw [o1 _ hl, flatText, o2 _ _ len]
  by_cases hlt : li k < off
  · rw [if_pos (by omega), if_pos hlt, pad_nil]
  rw [if_neg (by omega), if_neg hlt, show ((li k : Int) - off).toNat = li k - off by omega]
  cases hc : (t.cell (r, k)).text with
  | none =>
    simp only [cellLines, List.getElem?_nil, Option.getD_none, pad_nil]
    rfl
  | some s =>
    rw [hc] at h1 h2 h3
    obtain ⟨l1, l2⟩ := h1.line (li k - off)
    rcases Nat.lt_or_ge (li k - off) (s.count '\n' + 1) with hlt | hge
    · obtain ⟨l, e, hl, he, htl, ls, hls, hi⟩ := l1 hlt
      rw [hl]
      simp only [consoleStrlen_tidy htl he, Res.bind_ok, Res.pure_eq, List.take_left]
      rw [getHAlign, (hb.cells _).2.2]
      simp only
      rw [cellLines, Lines.unique (linesOf_lines s) hls, hi, Option.getD_some, alignText_pad]
      rw [textWidth_largest h1] at h3
      have h3 := Res.ok.inj h3
      have := hb.fits r k hr hk
      rw [← h3] at this
      refine Nat.le_trans (le_largest (List.mem_map_of_mem ?_)) this
      rw [cellLines, Lines.unique (linesOf_lines s) hls]
      exact List.mem_of_getElem? hi
    · rw [l2 hge]
      simp only
      rw [cellLines, List.getElem?_eq_none (by rw [linesOf_length]; exact hge), Option.getD_none, pad_nil]

/-- One line of a row. -/
def flatLine (t : Table) (w h : Nat → Nat) (r i k n : Nat) : Str :=
  (List.range' k n).flatMap fun k => (if t.colCounter k > 0 then vline (borderLeft t (r, k)) else []) ++ flatText t w h r k i

theorem Flat.line {t w h} (hb : Flat t w h) {r : Nat} (hr : r < t.numRows) (i : Nat) (hi : i < h r) (n k : Nat)
    (li : Nat → Nat) (hk : k + n = t.numCols) (hl : ∀ j, k ≤ j → j < t.numCols → li j = i) :
    ∃ li', lineLoop t w h r n k li = .ok (flatLine t w h r i k n, li') ∧
      (∀ j, k ≤ j → j < t.numCols → li' j = i + 1) ∧ ∀ j, j < k → li' j = li j := by
  induction n generalizing k li with
  | zero =>
    refine ⟨li, ?_, fun j h1 h2 => by omega, fun _ _ => rfl⟩
    rw [lineLoop, if_neg (by omega)]; rfl
  | succ n ih =>
    have hlt : k < t.numCols := by omega
    have hlk := hl k (Nat.le_refl _) hlt
    obtain ⟨li', e, h1, h2⟩ := ih (k + 1) (put li k (li k + 1)) (by omega) (fun j hj hj' => by
      rw [put_ne _ _ (by omega)]; exact hl j (by omega) hj')
    refine ⟨li', ?_, fun j hj hj' => ?_, fun j hj => ?_⟩
    · rw [lineLoop, if_pos hlt]
      simp only [hb.text li hr hlt (by rw [hlk]; exact hi), Out.of, Out.bind_ok, hb.owner, (hb.cells _).1, e, Out.pure_eq]
      rw [hlk]
      rfl
    · rcases Nat.lt_or_ge k j with hkj | hkj
      · exact h1 j hkj hj'
      · have hjk : j = k := by omega
        subst hjk
        rw [h2 j (by omega), put_eq, hlk]
    · rw [h2 j (by omega), put_ne _ _ (by omega)]

theorem Flat.rowLines {t w h} (hb : Flat t w h) {r : Nat} (hr : r < t.numRows) (n i : Nat) (hi : i + n = h r)
    (li : Nat → Nat) (hl : ∀ j, j < t.numCols → li j = i) :
    ∃ li', Layout.rowLines t w h r n li = .ok ((List.range' i n).map fun i => flatLine t w h r i 0 t.numCols, li') := by
  induction n generalizing i li with
  | zero => exact ⟨li, rfl⟩
  | succ n ih =>
    obtain ⟨li1, e1, h1, _⟩ := hb.line hr i (by omega) t.numCols 0 li (by omega) (fun j _ hj => hl j hj)
    obtain ⟨li2, e2⟩ := ih (i + 1) (by omega) li1 (fun j hj => h1 j (Nat.zero_le _) hj)
    exact ⟨li2, by simp only [Layout.rowLines, e1, Out.bind_ok, e2, Out.pure_eq]; rfl⟩

/-- The line above a row. -/
def flatBorder (t : Table) (w : Nat → Nat) (r k n : Nat) : Str :=
  (List.range' k n).flatMap fun k => (if t.colCounter k > 0 then intersection t r k else []) ++ hline (borderAbove t (r, k)) (w k)

theorem Flat.border {t w h} (hb : Flat t w h) (r : Nat) (n k : Nat) (li : Nat → Nat) (hk : k + n = t.numCols) :
    rowBorderLoop t w h r n k li = .ok (flatBorder t w r k n, li) := by
  induction n generalizing k li with
  | zero => rw [rowBorderLoop, if_neg (by omega)]; rfl
  | succ n ih =>
    rw [rowBorderLoop, if_pos (by omega)]
    simp only [(hb.cells _).2.2]
    rw [ih (k + 1) li (by omega)]
    rfl

theorem Flat.all {t w h} (hb : Flat t w h) (n r : Nat) (hn : r + n = t.numRows) (li : Nat → Nat) :
    rowsLoop t w h n r li = .ok ((List.range' r n).flatMap fun r =>
      (if t.rowCounter r > 0 then [flatBorder t w r 0 t.numCols] else []) ++
      (List.range (h r)).map fun i => flatLine t w h r i 0 t.numCols) := by
  induction n generalizing r li with
  | zero => rfl
  | succ n ih =>
    obtain ⟨li2, e2⟩ := hb.rowLines (r := r) (by omega) (h r) 0 (by omega) (resetLines t r li)
      (fun j hj => by rw [resetLines, (hb.cells _).2.2])
    rw [rowsLoop, hb.border r t.numCols 0 li (by omega), List.range'_succ, List.flatMap_cons, List.range_eq_range']
    by_cases hc : t.rowCounter r > 0
    · rw [if_pos hc, if_pos hc]
      simp only [Out.pure_eq, Out.bind_ok, e2, ih (r + 1) (by omega)]
    · rw [if_neg hc, if_neg hc]
      simp only [Out.pure_eq, Out.bind_ok, e2, ih (r + 1) (by omega)]

/-! ### Widths -/

theorem flatMap_piece {f : Nat → Str} {g : Nat → Nat} (n k : Nat) (h : ∀ j, k ≤ j → j < k + n → Piece (f j) (g j)) :
    Piece ((List.range' k n).flatMap f) (∑ i ∈ Finset.range n, g (k + i)) := by
  induction n generalizing k with
  | zero => exact .nil
  | succ n ih =>
    rw [List.range'_succ, List.flatMap_cons, Finset.sum_range_succ', Nat.add_comm _ (g (k + 0))]
    refine (h k (Nat.le_refl _) (by omega)).append ?_
    have := ih (k + 1) fun j h1 h2 => h j (by omega) (by omega)
    simpa only [Nat.add_assoc, Nat.add_comm 1] using this

theorem pad_piece (a : HAlign) {w : Nat} {s : Str} (h : Piece s (columns s)) (hw : columns s ≤ w) : Piece (pad a w s) w := by
  rw [← alignText_pad a hw]
  exact alignText_piece a h hw

theorem Flat.text_piece {t w h} (hb : Flat t w h) {r k : Nat} (hr : r < t.numRows) (hk : k < t.numCols) (i : Nat) :
    Piece (flatText t w h r k i) (w k) := by
  have line : ∀ j : Nat, Piece ((cellLines (t.cell (r, k)).text)[j]?.getD []) (columns ((cellLines (t.cell (r, k)).text)[j]?.getD [])) ∧
      columns ((cellLines (t.cell (r, k)).text)[j]?.getD []) ≤ w k := by
    intro j
    cases hj : (cellLines (t.cell (r, k)).text)[j]? with
    | none => exact ⟨.nil, Nat.zero_le _⟩
    | some l =>
      have hm := List.mem_of_getElem? hj
      obtain ⟨h1, _, h3, _⟩ := hb.texts (r, k)
      rw [textWidth_largest h1] at h3
      have h3 := Res.ok.inj h3
      have hf := hb.fits r k hr hk
      rw [← h3] at hf
      refine ⟨?_, Nat.le_trans (le_largest (List.mem_map_of_mem hm)) hf⟩
      cases hc : (t.cell (r, k)).text with
      | none => rw [hc] at hm; simp [cellLines] at hm
      | some s =>
        rw [hc] at h1 hm
        exact (h1.2 _ (linesOf_lines s) l hm).piece
  rw [flatText]
  unfold visible
  extract_lets gap above
  split
  · rw [pad_nil]; exact .spaces _
  · exact pad_piece _ (line _).1 (line _).2

theorem Flat.line_piece {t w h} (hb : Flat t w h) {r : Nat} (hr : r < t.numRows) (i : Nat) :
    Piece (flatLine t w h r i 0 t.numCols) (lineWidth w t.colCounter t.numCols) := by
  have := flatMap_piece (f := fun k => (if t.colCounter k > 0 then vline (borderLeft t (r, k)) else []) ++ flatText t w h r k i)
    (g := fun k => bit t.colCounter k + w k) t.numCols 0 (fun k _ hk => by
      refine Piece.append ?_ (hb.text_piece hr (by omega) i)
      rw [bit]
      split
      · exact vline_piece _
      · exact .nil)
  simp only [Nat.zero_add] at this
  exact this

theorem Flat.border_piece {t w h} (_ : Flat t w h) (r : Nat) :
    Piece (flatBorder t w r 0 t.numCols) (lineWidth w t.colCounter t.numCols) := by
  have := flatMap_piece (f := fun k => (if t.colCounter k > 0 then intersection t r k else []) ++ hline (borderAbove t (r, k)) (w k))
    (g := fun k => bit t.colCounter k + w k) t.numCols 0 (fun k _ hk => by
      refine Piece.append ?_ (hline_piece _ _)
      rw [bit]
      split
      · exact intersection_piece _ _ _
      · exact .nil)
  simp only [Nat.zero_add] at this
  exact this

/-! ### All together -/

theorem lined_pos (b : Border) : 0 < lined b ↔ b ≠ .none := by
  rw [lined]; split <;> simp_all

theorem sum_pos (n : Nat) (f : Nat → Nat) : 0 < ∑ j ∈ Finset.range n, f j ↔ ∃ j, j < n ∧ 0 < f j := by
  rw [Nat.pos_iff_ne_zero, Ne, Finset.sum_eq_zero_iff]
  simp only [Finset.mem_range, not_forall, Nat.pos_iff_ne_zero, exists_prop, Ne]

theorem grid_ok {cs : List Call} {t : Table} (hc : ∀ c ∈ cs, Spanless c ∧ TidyCall c) (he : calls cs empty = .ok t)
    (h0 : t.numCols ≠ 0) (hs : ∀ p, (t.cell p).height ≤ 2 ^ 31) :
    ∃ w h t', dimensions t = .ok (w, h) ∧ print t = .ok (grid t w h, t') ∧
      ∀ l ∈ grid t w h, Piece l (lineWidth w t'.colCounter t.numCols) := by
  have hm := Made.empty.calls hc he
  have hsg := calls_single (fun c h => (hc c h).1) empty_single he
  obtain ⟨hi, hg, ht⟩ := hm.all
  obtain ⟨w, h, hd, fit, wt, htt⟩ := dimensions_tight hi hsg
  obtain ⟨t', e, d1, d2, d3, d4, d5, d6, d7, d8⟩ := dropLines_exact hi h0 w h
  have sh := dropLines_shows e
  have cnt : Counts (· = ·) t := (Counts.empty (.inr rfl)).calls (.inr rfl) (.inr fun c hm x y e => by
    have := (hc c hm).1
    rw [e] at this
    exact this) .empty he
  have cnt' := d8 _ (.inr rfl) cnt
  have hcols := hi.cols
  have unset : ∀ p, (t.cell p).isSet = false → (t.cell p).width = 0 ∧ (t.cell p).height = 0 := by
    intro p hp
    obtain ⟨_, x2, x3, x4⟩ := ht p
    rw [x4 hp] at x2 x3
    exact ⟨(Res.ok.inj x3).symm, x2⟩
  have fits : ∀ p, p.1 < t.numRows → p.2 < t.numCols → (t.cell p).width ≤ w p.2 ∧ (t.cell p).height ≤ h p.1 := by
    intro p h1 h2
    cases hp : (t.cell p).isSet with
    | true => exact fit p h1 h2 hp
    | false => have := unset p hp; omega
  have keeps : Keeps t t' := ⟨d4, by omega, d3⟩
  have flat : Flat t' w h := by
    refine ⟨fun p => ?_, ht.keeps keeps, fun r k h1 h2 => ?_, fun r k h1 h2 => ?_, fun r _ => ?_⟩
    · obtain ⟨s1, s2, s3⟩ := hsg p
      exact ⟨(d3 p).spanX.trans s1, (d3 p).spanY.trans s2, (d3 p).parent.trans s3⟩
    · rw [(d3 _).width]
      exact (fits (r, k) (d4 ▸ h1) (d5 ▸ h2)).1
    · rw [(d3 _).height]
      exact (fits (r, k) (d4 ▸ h1) (d5 ▸ h2)).2
    · rcases htt r with h | ⟨k, _, _, _, h⟩
      · rw [h]; exact Nat.zero_le _
      · rw [← h]; exact hs _
  have hrow : ∀ r, r < t.numRows → (t'.rowCounter r > 0 ↔ LineAbove t w r) := by
    intro r hr
    have e : aboveLines t' r = t'.rowCounter r := cnt'.above r (by omega)
    have p := sum_pos maxCols fun k => lined ((t'.cell (r, k)).above.getD .none)
    have q := lined_pos (t'.rowBorder r)
    rw [← e, aboveLines, LineAbove, ← d6]
    have : (∃ k, k < maxCols ∧ 0 < lined ((t'.cell (r, k)).above.getD .none)) ↔
        ∃ k, k < maxCols ∧ (ownAbove t w r k).getD .none ≠ .none :=
      exists_congr fun k => and_congr_right fun hk => by rw [lined_pos, d1 r k hr hk]
    rw [← this, ← p, ← q]
    omega
  have hcol : ∀ k, k < t.numCols → (t'.colCounter k > 0 ↔ LineLeft t h k) := by
    intro k hk
    have e : leftLines t' k = t'.colCounter k := cnt'.left k (by omega)
    have p := sum_pos t'.numRows fun r => lined ((t'.cell (r, k)).left.getD .none)
    have q := lined_pos (t'.colBorder k)
    rw [← e, leftLines, LineLeft, ← d7]
    have : (∃ r, r < t'.numRows ∧ 0 < lined ((t'.cell (r, k)).left.getD .none)) ↔
        ∃ r, r < t.numRows ∧ (ownLeft t h r k).getD .none ≠ .none := by
      rw [d4]
      exact exists_congr fun r => and_congr_right fun hr => by rw [lined_pos, d2 r k hr hk]
    rw [← this, ← p, ← q]
    omega
  have bl : ∀ r k, r < t.numRows → k < t.numCols → borderLeft t' (r, k) = lineLeft t h r k := fun r k hr hk => by
    rw [borderLeft, d2 r k hr hk, d7, lineLeft]
  have ba : ∀ r k, r < t.numRows → k < t.numCols → borderAbove t' (r, k) = lineAbove t w r k := fun r k hr hk => by
    rw [borderAbove, d1 r k hr (by omega), d6, lineAbove]
  suffices key : ((List.range' 0 t'.numRows).flatMap fun r =>
      (if t'.rowCounter r > 0 then [flatBorder t' w r 0 t'.numCols] else []) ++
      (List.range (h r)).map fun i => flatLine t' w h r i 0 t'.numCols) = grid t w h by
    refine ⟨w, h, t', hd, ?_, fun l hl => ?_⟩
    · simp only [print, if_neg h0, hd, Out.of, Out.bind_ok, e, flat.all t'.numRows 0 (by omega), Out.pure_eq, key]
    · rw [← key] at hl
      obtain ⟨r, hr, hl⟩ := List.mem_flatMap.1 hl
      have hr : r < t'.numRows := by
        obtain ⟨i, hi, e⟩ := List.mem_range'.1 hr
        omega
      rw [← d5]
      rcases List.mem_append.1 hl with hl | hl
      · split at hl
        · rw [List.mem_singleton.1 hl]; exact flat.border_piece r
        · simp at hl
      · obtain ⟨i, _, rfl⟩ := List.mem_map.1 hl
        exact flat.line_piece hr i
  rw [grid, d4, ← List.range_eq_range']
  refine List.flatMap_congr fun r hr => ?_
  have hr : r < t.numRows := List.mem_range.1 hr
  congr 1
  · by_cases hl : LineAbove t w r
    · rw [if_pos ((hrow r hr).2 hl), if_pos hl, flatBorder, borderRow, d5, ← List.range_eq_range']
      congr 1
      refine List.flatMap_congr fun k hk => ?_
      have hk : k < t.numCols := List.mem_range.1 hk
      rw [hline_eq, ba r k hr hk]
      congr 1
      by_cases hlk : LineLeft t h k
      · rw [if_pos ((hcol k hk).2 hlk), if_pos hlk, intersection, junction_eq, bl r k hr hk, ba r k hr hk]
        have x1 : (if r = 0 then Border.none else borderLeft t' (r - 1, k)) = if r = 0 then .none else lineLeft t h (r - 1) k := by
          split
          · rfl
          · exact bl _ _ (by omega) hk
        have x2 : (if k = 0 then Border.none else borderAbove t' (r, k - 1)) = if k = 0 then .none else lineAbove t w r (k - 1) := by
          split
          · rfl
          · exact ba _ _ hr (by omega)
        rw [x1, x2]
      · rw [if_neg (fun x => hlk ((hcol k hk).1 x)), if_neg hlk]
    · rw [if_neg (fun x => hl ((hrow r hr).1 x)), if_neg hl]
  · refine List.map_congr_left fun i _ => ?_
    rw [flatLine, textRow, d5, ← List.range_eq_range']
    refine List.flatMap_congr fun k hk => ?_
    have hk : k < t.numCols := List.mem_range.1 hk
    rw [vline_eq, bl r k hr hk, flatText, (sh.cell _).1, (sh.cell _).2, sh.hs, sh.vs, (d3 _).text]
    congr 1
    by_cases hlk : LineLeft t h k
    · rw [if_pos ((hcol k hk).2 hlk), if_pos hlk]
    · rw [if_neg (fun x => hlk ((hcol k hk).1 x)), if_neg hlk]

end Verif.LayoutSpec
