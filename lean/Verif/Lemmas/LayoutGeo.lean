import Verif.Lemmas.LayoutInv

/-!
# Lemmas: spans divide the table into rectangles; texts of cells
-/

namespace Verif.LayoutSpec
open Layout TextSpec

/-- The cells of a table are divided into rectangles, one for every cell without parent. -/
structure Geo (t : Table) : Prop where
  own : ∀ r k, r < t.numRows → k < maxCols →
    (owner t (r, k)).1 ≤ r ∧ r < (owner t (r, k)).1 + (t.cell (owner t (r, k))).spanY ∧
    (owner t (r, k)).2 ≤ k ∧ k < (owner t (r, k)).2 + (t.cell (owner t (r, k))).spanX ∧
    (t.cell (owner t (r, k))).parent = none
  rect : ∀ r k, r < t.numRows → k < maxCols → (t.cell (r, k)).parent = none →
    ∀ i j, i < (t.cell (r, k)).spanY → j < (t.cell (r, k)).spanX → owner t (r + i, k + j) = (r, k)

/-- Texts are tidy, and sizes are those of the texts. -/
def Texts (t : Table) : Prop :=
  ∀ p, Tidy (t.cell p).text ∧ (t.cell p).height = textHeight (t.cell p).text ∧
    textWidth (t.cell p).text = .ok (t.cell p).width ∧ ((t.cell p).isSet = false → (t.cell p).text = none)

theorem Geo.keeps {t t' : Table} (h : Geo t) (hk : Keeps t t') : Geo t' := by
  have ho : ∀ p, owner t' p = owner t p := fun p => by simp only [owner, (hk.cell p).parent]
  refine ⟨fun r k hr hc => ?_, fun r k hr hc hp i j hi hj => ?_⟩
  · have := h.own r k (hk.rows ▸ hr) hc
    rw [ho, (hk.cell _).spanX, (hk.cell _).spanY, (hk.cell _).parent]
    exact this
  · rw [(hk.cell _).parent] at hp
    rw [(hk.cell _).spanY] at hi
    rw [(hk.cell _).spanX] at hj
    rw [ho]
    exact h.rect r k (hk.rows ▸ hr) hc hp i j hi hj

theorem Texts.keeps {t t' : Table} (h : Texts t) (hk : Keeps t t') : Texts t' := fun p => by
  rw [(hk.cell p).text, (hk.cell p).height, (hk.cell p).width, (hk.cell p).isSet]
  exact h p

theorem Texts.blank : Tidy ({} : Cell).text ∧ ({} : Cell).height = textHeight ({} : Cell).text ∧
    textWidth ({} : Cell).text = .ok ({} : Cell).width ∧ (({} : Cell).isSet = false → ({} : Cell).text = none) :=
  ⟨trivial, rfl, rfl, fun _ => rfl⟩

theorem Texts.appendRow {t : Table} (h : Texts t) : Texts (appendRow t) := fun p => by
  rw [appendRow_cell]
  by_cases e : p.1 = t.numRows
  · rw [if_pos e]; exact Texts.blank
  · rw [if_neg e]; exact h p

theorem Texts.appendRows {t : Table} (h : Texts t) (n : Nat) : Texts (appendRows n t) := by
  induction n generalizing t with
  | zero => exact h
  | succ n ih => exact ih h.appendRow

theorem Geo.appendRow {t : Table} (h : Geo t) (hi : Inside t) : Geo (appendRow t) := by
  have old : ∀ p, p.1 < t.numRows → (Layout.appendRow t).cell p = t.cell p := fun p hp => by
    rw [appendRow_cell, if_neg (by omega)]
  have new : ∀ p, p.1 = t.numRows → (Layout.appendRow t).cell p = {} := fun p hp => by
    rw [appendRow_cell, if_pos hp]
  refine ⟨fun r k hr hc => ?_, fun r k hr hc hp i j hi' hj => ?_⟩
  · rcases Nat.lt_or_ge r t.numRows with hr' | hr'
    · have ho : owner (Layout.appendRow t) (r, k) = owner t (r, k) := by
        simp only [owner, old (r, k) hr']
      have := h.own r k hr' hc
      rw [ho, old _ (by omega)]
      exact this
    · have e : r = t.numRows := by
        have : r < t.numRows + 1 := hr
        omega
      have ho : owner (Layout.appendRow t) (r, k) = (r, k) := by
        simp only [owner, new (r, k) e]; rfl
      rw [ho, new _ e]
      exact ⟨Nat.le_refl _, Nat.lt_succ_self _, Nat.le_refl _, Nat.lt_succ_self _, rfl⟩
  · rcases Nat.lt_or_ge r t.numRows with hr' | hr'
    · rw [old (r, k) hr'] at hp hi' hj
      have hw := (hi.cell (r, k) hr' hc).2.2.1
      have e : owner (Layout.appendRow t) (r + i, k + j) = owner t (r + i, k + j) := by
        simp only [owner, old (r + i, k + j) (show r + i < t.numRows by simp only at hw; omega)]
      rw [e]
      exact h.rect r k hr' hc hp i j hi' hj
    · have e : r = t.numRows := by
        have : r < t.numRows + 1 := hr
        omega
      rw [new (r, k) e] at hi' hj
      have hi0 : i = 0 := Nat.lt_one_iff.1 hi'
      have hj0 : j = 0 := Nat.lt_one_iff.1 hj
      subst hi0 hj0
      simp only [owner, Nat.add_zero, new (r, k) e]
      rfl

theorem Geo.appendRows {t : Table} (h : Geo t) (hi : Inside t) (n : Nat) : Geo (appendRows n t) := by
  induction n generalizing t with
  | zero => exact h
  | succ n ih => exact ih (h.appendRow hi) hi.appendRow

/-! ### The spans of `set_span` in one step -/

theorem setCell_eq (t : Table) (p : Nat × Nat) (f : Cell → Cell) : (setCell t p f).cell p = f (t.cell p) := put_eq _ _ _

theorem setCell_ne (t : Table) {p q : Nat × Nat} (f : Cell → Cell) (h : q ≠ p) : (setCell t p f).cell q = t.cell q :=
  put_ne _ _ h

theorem spanRow_free (p : Nat × Nat) (i n j : Nat) (t : Table)
    (hf : ∀ j', j ≤ j' → j' < j + n → ¬ (i = 0 ∧ j' = 0) → (t.cell (p.1 + i, p.2 + j')).isSet = false) :
    spanRow p i n j t = ({ t with
      cell := fun q => if q.1 = p.1 + i ∧ p.2 + j ≤ q.2 ∧ q.2 < p.2 + j + n ∧ q ≠ p
        then adopt p i (q.2 - p.2) (t.cell q) else t.cell q }, false) := by
  induction n generalizing j t with
  | zero =>
    have : (fun q : Nat × Nat => if q.1 = p.1 + i ∧ p.2 + j ≤ q.2 ∧ q.2 < p.2 + j + 0 ∧ q ≠ p
        then adopt p i (q.2 - p.2) (t.cell q) else t.cell q) = t.cell := by
      funext q; exact if_neg (by omega)
    rw [this, spanRow]
  | succ n ih =>
    rw [spanRow]
    by_cases h0 : i = 0 ∧ j = 0
    · rw [if_pos h0, ih (j + 1) t fun j' h1 h2 h3 => hf j' (by omega) (by omega) h3]
      congr 2
      funext q
      obtain ⟨rfl, rfl⟩ := h0
      by_cases hq : q = p
      · subst hq; simp
      · have : ¬ (q.1 = p.1 ∧ q.2 = p.2) := fun h => hq (Prod.ext h.1 h.2)
        refine ite_congr (propext ?_) (fun _ => rfl) (fun _ => rfl)
        constructor <;> rintro ⟨a, b, c, d⟩ <;> exact ⟨a, by omega, by omega, d⟩
    · rw [if_neg h0, if_neg (by rw [hf j (Nat.le_refl _) (by omega) h0]; exact Bool.false_ne_true),
        ih (j + 1) _ fun j' h1 h2 h3 => by
          rw [setCell_ne _ _ (fun h => by simp only [Prod.mk.injEq] at h; omega)]
          exact hf j' (by omega) (by omega) h3]
      congr 2
      funext q
      by_cases hq : q = (p.1 + i, p.2 + j)
      · subst hq
        rw [if_neg (by simp only; omega), setCell_eq, if_pos ⟨rfl, Nat.le_refl _, by simp only; omega, fun h => h0 (by
          have h1 := congrArg Prod.fst h
          have h2 := congrArg Prod.snd h
          simp only at h1 h2
          omega)⟩]
        simp only [Nat.add_sub_cancel_left]
      · rw [setCell_ne _ _ hq]
        have : ¬ (q.1 = p.1 + i ∧ q.2 = p.2 + j) := fun h => hq (Prod.ext h.1 h.2)
        refine ite_congr (propext ?_) (fun _ => rfl) (fun _ => rfl)
        constructor <;> rintro ⟨a, b, c, d⟩ <;> exact ⟨a, by omega, by omega, d⟩

/-- The cells of the span other than the spanning cell, from row offset `i` on. -/
def InSpan (p : Nat × Nat) (sx i n : Nat) (q : Nat × Nat) : Prop :=
  p.1 + i ≤ q.1 ∧ q.1 < p.1 + i + n ∧ p.2 ≤ q.2 ∧ q.2 < p.2 + sx ∧ q ≠ p

instance (p sx i n q) : Decidable (InSpan p sx i n q) := by unfold InSpan; infer_instance

/-- One row of the span as a table. -/
theorem spanRows_succ (p : Nat × Nat) (sx n i : Nat) (t : Table) (hrow : p.1 + i < t.numRows)
    (hf : ∀ q, InSpan p sx i (n + 1) q → q.1 < t.numRows → (t.cell q).isSet = false) :
    ∃ t2, spanRows p sx (n + 1) i t = spanRows p sx n (i + 1) t2 ∧
      t2.numRows = max t.numRows (if n = 0 then 0 else p.1 + i + 2) ∧
      ∀ q, t2.cell q = if t.numRows ≤ q.1 ∧ q.1 < t2.numRows then {}
        else if InSpan p sx i 1 q then adopt p i (q.2 - p.2) (t.cell q) else t.cell q := by
  rw [spanRows, spanRow_free p i sx 0 t (fun j' _ h2 h3 =>
      hf (p.1 + i, p.2 + j') ⟨Nat.le_refl _, by simp only; omega, by simp only; omega, by simp only; omega, fun h => h3 (by
        have h1 := congrArg Prod.fst h
        have h2 := congrArg Prod.snd h
        simp only at h1 h2
        omega)⟩ hrow)]
  simp only
  have hin : ∀ q, (q.1 = p.1 + i ∧ p.2 + 0 ≤ q.2 ∧ q.2 < p.2 + 0 + sx ∧ q ≠ p) = InSpan p sx i 1 q := fun q => propext (by
    unfold InSpan
    constructor
    · rintro ⟨a, b, c, d⟩; exact ⟨by omega, by omega, by omega, by omega, d⟩
    · rintro ⟨a, b, c, d, e⟩; exact ⟨by omega, by omega, by omega, e⟩)
  simp only [hin]
  refine ⟨_, rfl, ?_, fun q => ?_⟩
  · split
    · rename_i ha
      rw [if_neg ha.1]
      show t.numRows + 1 = _
      omega
    · rename_i ha
      show t.numRows = _
      split <;> omega
  · split
    · rename_i ha
      rw [appendRow_cell]
      show (if q.1 = t.numRows then _ else _) = if t.numRows ≤ q.1 ∧ q.1 < t.numRows + 1 then _ else _
      exact ite_congr (propext (by omega)) (fun _ => rfl) (fun _ => rfl)
    · rename_i ha
      show _ = if t.numRows ≤ q.1 ∧ q.1 < t.numRows then _ else _
      rw [if_neg (by omega)]

theorem spanRows_free (p : Nat × Nat) (sx n i : Nat) (t : Table) (hle : p.1 + i ≤ t.numRows)
    (hrow : n ≠ 0 → p.1 + i < t.numRows)
    (hf : ∀ q, InSpan p sx i n q → q.1 < t.numRows → (t.cell q).isSet = false) :
    (spanRows p sx n i t).numRows = max t.numRows (p.1 + i + n) ∧
    ∀ q, (spanRows p sx n i t).cell q =
      if InSpan p sx i n q
      then adopt p (q.1 - p.1) (q.2 - p.2) (if t.numRows ≤ q.1 ∧ q.1 < p.1 + i + n then {} else t.cell q)
      else if t.numRows ≤ q.1 ∧ q.1 < p.1 + i + n then {} else t.cell q := by
  induction n generalizing i t with
  | zero =>
    refine ⟨by rw [spanRows]; omega, fun q => ?_⟩
    rw [spanRows, if_neg (by unfold InSpan; omega), if_neg (by omega)]
  | succ n ih =>
    obtain ⟨t2, e, e1, e2⟩ := spanRows_succ p sx n i t (hrow (by omega)) hf
    have hr := hrow (by omega)
    have e3 : n ≠ 0 → p.1 + (i + 1) < t2.numRows := fun h => by rw [e1, if_neg h]; omega
    have e4 : t.numRows ≤ t2.numRows := by omega
    have e5 : t2.numRows ≤ max t.numRows (p.1 + i + n + 1) := by
      rw [e1]
      split <;> omega
    obtain ⟨g1, g2⟩ := ih (i + 1) t2 (by omega) e3 (fun q hq hq' => by
      have hq0 := hq
      obtain ⟨a, b, c, d, f⟩ := hq
      rw [e2]
      by_cases hr' : t.numRows ≤ q.1 ∧ q.1 < t2.numRows
      · rw [if_pos hr']
      · rw [if_neg hr', if_neg (by unfold InSpan; omega)]
        exact hf q ⟨by omega, by omega, c, d, f⟩ (by omega))
    rw [e]
    refine ⟨by rw [g1]; omega, fun q => ?_⟩
    rw [g2, e2]
    by_cases h1 : InSpan p sx (i + 1) n q
    · have h1' : InSpan p sx i (n + 1) q := by
        obtain ⟨a, b, c, d, f⟩ := h1
        exact ⟨by omega, by omega, c, d, f⟩
      have h2 : ¬ InSpan p sx i 1 q := by
        obtain ⟨a, b, c, d, f⟩ := h1
        unfold InSpan
        omega
      rw [if_pos h1, if_pos h1']
      congr 1
      obtain ⟨a, b, c, d, f⟩ := h1
      by_cases h3 : t.numRows ≤ q.1 ∧ q.1 < p.1 + i + (n + 1)
      · rw [if_pos h3]
        by_cases h4 : t2.numRows ≤ q.1 ∧ q.1 < p.1 + (i + 1) + n
        · rw [if_pos h4]
        · rw [if_neg h4, if_pos (by omega)]
      · rw [if_neg h3, if_neg (by omega), if_neg (by omega), if_neg h2]
    · rw [if_neg h1]
      by_cases h3 : InSpan p sx i 1 q
      · have h1' : InSpan p sx i (n + 1) q := by
          obtain ⟨a, b, c, d, f⟩ := h3
          exact ⟨by omega, by omega, c, d, f⟩
        obtain ⟨a, b, c, d, f⟩ := h3
        rw [if_pos h1', if_neg (by omega), if_neg (by omega), if_pos ⟨a, b, c, d, f⟩, if_neg (by omega)]
        rw [show q.1 - p.1 = i by omega]
      · have h1' : ¬ InSpan p sx i (n + 1) q := by
          rintro ⟨a, b, c, d, f⟩
          unfold InSpan at h1 h3
          rcases Nat.lt_or_ge q.1 (p.1 + (i + 1)) with h | h
          · exact h3 ⟨a, by omega, c, d, f⟩
          · exact h1 ⟨h, by omega, c, d, f⟩
        rw [if_neg h1']
        by_cases h4 : t.numRows ≤ q.1 ∧ q.1 < p.1 + i + (n + 1)
        · rw [if_pos h4]
          by_cases h5 : t2.numRows ≤ q.1 ∧ q.1 < p.1 + (i + 1) + n
          · rw [if_pos h5]
          · rw [if_neg h5, if_pos (by omega)]
        · rw [if_neg h4, if_neg (by omega), if_neg (by omega), if_neg h3]

theorem Keeps.cur (t : Table) (a b : Nat) : Keeps t { t with curRow := a, curCol := b } :=
  ⟨_root_.rfl, Nat.le_refl _, fun _ => .rfl⟩

/-- Calls that are neither texts nor spans. -/
theorem call_keeps {t t' : Table} {c : Call} (he : call c t = .ok t') :
    (∃ s, c = .add s) ∨ (∃ x y, c = .setSpan x y) ∨ ∃ n, Keeps (appendRows n t) t' := by
  cases c with
  | setPosition x y =>
    simp only [call, setPosition] at he
    split at he
    · cases he
    · simp only [Res.ok.injEq] at he
      subst he
      exact .inr (.inr ⟨_, rfl, Nat.le_refl _, fun _ => .rfl⟩)
  | nextRow =>
    simp only [call, Res.ok.injEq] at he
    subst he
    refine .inr (.inr ?_)
    rw [nextRow]
    split
    · exact ⟨0, rfl, Nat.le_refl _, fun _ => .rfl⟩
    · exact ⟨1, rfl, Nat.le_refl _, fun _ => .rfl⟩
  | add s => exact .inl ⟨s, rfl⟩
  | setAligns hs vs =>
    simp only [Layout.call, setAligns] at he
    split at he
    · cases he
    · simp only [Res.ok.injEq] at he
      subst he
      exact .inr (.inr ⟨0, rfl, Nat.le_refl _, fun _ => .rfl⟩)
  | overrideH a => exact .inr (.inr ⟨0, (onCurrent_ok (fun c => .hAlign c _) he).1⟩)
  | overrideV a => exact .inr (.inr ⟨0, (onCurrent_ok (fun c => .vAlign c _) he).1⟩)
  | overrideHRow a => cases he; exact .inr (.inr ⟨0, onRow_keeps t fun c => .hAlign c _⟩)
  | overrideVRow a => cases he; exact .inr (.inr ⟨0, onRow_keeps t fun c => .vAlign c _⟩)
  | setHline s => cases he; exact .inr (.inr ⟨0, setHline_keeps t s⟩)
  | setVline i s => exact .inr (.inr ⟨0, (setVline_ok he).1⟩)
  | makeBoxed s =>
    obtain ⟨t1, t2, t3, t4, h1, h2, h3, h4, rfl⟩ := makeBoxed_ok he
    refine .inr (.inr ?_)
    rw [setPosition] at h1 h3
    split at h1
    · cases h1
    split at h3
    · cases h3
    simp only [Res.ok.injEq] at h1 h3
    have k2 := (setVline_ok h2).1
    have k4 := (setVline_ok h4).1
    subst h1
    refine ⟨0 + 1 - t.numRows, ?_⟩
    refine Keeps.trans (b := setHline s t2) ((Keeps.cur _ _ _).trans (k2.trans (setHline_keeps _ _))) ?_
    have hn : appendRows ((setHline s t2).numRows - 1 + 1 - (setHline s t2).numRows) (setHline s t2) = setHline s t2 := by
      have : 0 < (setHline s t2).numRows := by
        show 0 < t2.numRows
        rw [k2.rows]
        show 0 < (appendRows (0 + 1 - t.numRows) t).numRows
        rw [(appendRows_rows _ t).1]
        omega
      rw [show (setHline s t2).numRows - 1 + 1 - (setHline s t2).numRows = 0 by omega]
      rfl
    rw [hn] at h3
    subst h3
    exact ((Keeps.cur _ _ _).trans k4).trans (setHline_keeps _ _)
  | setAllVlines s => exact .inr (.inr ⟨0, (vlinesLoop_ok _ _ he).1⟩)
  | overrideLeft s => exact .inr (.inr ⟨0, (overrideLeft_ok he).2.1⟩)
  | overrideAbove s => exact .inr (.inr ⟨0, (overrideAbove_ok he).2.1⟩)
  | setSpan x y => exact .inr (.inl ⟨x, y, rfl⟩)

theorem Geo.addText {t t' : Table} {s} (h : Geo t) (he : addText s t = .ok t') : Geo t' := by
  obtain ⟨_, w, hw, h1, h2, h3, h4, h5, h6, h7⟩ := addText_ok he
  have hc : ∀ p, (t'.cell p).spanX = (t.cell p).spanX ∧ (t'.cell p).spanY = (t.cell p).spanY ∧
      (t'.cell p).parent = (t.cell p).parent := fun p => by
    rw [h7]
    by_cases e : p = (t.curRow, t.curCol)
    · subst e
      rw [put_eq]
      exact ⟨rfl, rfl, rfl⟩
    · rw [put_ne _ _ e]
      exact ⟨rfl, rfl, rfl⟩
  have ho : ∀ p, owner t' p = owner t p := fun p => by simp only [owner, (hc p).2.2]
  refine ⟨fun r k hr hk => ?_, fun r k hr hk hp i j hi hj => ?_⟩
  · have := h.own r k (h1 ▸ hr) hk
    rw [ho, (hc _).1, (hc _).2.1, (hc _).2.2]
    exact this
  · rw [(hc _).2.2] at hp
    rw [(hc _).2.1] at hi
    rw [(hc _).1] at hj
    rw [ho]
    exact h.rect r k (h1 ▸ hr) hk hp i j hi hj

theorem Texts.addText {t t' : Table} {s} (h : Texts t) (hs : Tidy s) (he : addText s t = .ok t') : Texts t' := fun p => by
  obtain ⟨_, w, hw, h1, h2, h3, h4, h5, h6, h7⟩ := addText_ok he
  rw [h7]
  by_cases e : p = (t.curRow, t.curCol)
  · subst e
    rw [put_eq]
    exact ⟨hs, rfl, hw, fun h => by simp at h⟩
  · rw [put_ne _ _ e]
    exact h p

/-- `set_span` on free cells in one step. -/
theorem setSpan_cells {t t' : Table} {sx sy} (hi : Inside t) (hp : Proper t (.setSpan sx sy))
    (he : setSpan sx sy t = .ok t') :
    t'.numRows = max t.numRows (t.curRow + sy) ∧
    ∀ q, t'.cell q =
      if InSpan (t.curRow, t.curCol) sx 0 sy q then
        adopt (t.curRow, t.curCol) (q.1 - t.curRow) (q.2 - t.curCol)
          (if t.numRows ≤ q.1 ∧ q.1 < t.curRow + sy then {} else t.cell q)
      else if t.numRows ≤ q.1 ∧ q.1 < t.curRow + sy then {}
      else if q = (t.curRow, t.curCol) then { t.cell (t.curRow, t.curCol) with spanX := sx, spanY := sy }
      else t.cell q := by
  obtain ⟨h1, h2, h3, h4, h5, rfl⟩ := setSpan_ok he
  have hr := hi.row
  have hset : ∀ q, (setCell t (t.curRow, t.curCol) fun c => { c with spanX := sx, spanY := sy }).cell q =
      if q = (t.curRow, t.curCol) then { t.cell (t.curRow, t.curCol) with spanX := sx, spanY := sy } else t.cell q :=
    fun q => rfl
  obtain ⟨g1, g2⟩ := spanRows_free (t.curRow, t.curCol) sx sy 0
    { setCell t (t.curRow, t.curCol) fun c => { c with spanX := sx, spanY := sy } with
        numCols := max (t.curCol + sx) t.numCols } (Nat.le_of_lt hr) (fun _ => hr) (fun q hq hq' => by
      show ((setCell t (t.curRow, t.curCol) (fun c => { c with spanX := sx, spanY := sy })).cell q).isSet = false
      rw [hset]
      obtain ⟨a, b, c, d, f⟩ := hq
      rw [if_neg f]
      have := (hp.2 (q.1 - t.curRow) (q.2 - t.curCol) (by simp only at b; omega) (by simp only at d; omega) (fun e => f (by
        simp only [Prod.mk.injEq] at e
        exact Prod.ext (by simp only at a ⊢; omega) (by simp only at c ⊢; omega)))
        (by have : q.1 < t.numRows := hq'; simp only at a; omega)).1
      rw [show (t.curRow + (q.1 - t.curRow), t.curCol + (q.2 - t.curCol)) = q from
        Prod.ext (by simp only at a ⊢; omega) (by simp only at c ⊢; omega)] at this
      exact this)
  refine ⟨g1, fun q => ?_⟩
  rw [g2]
  by_cases hq : InSpan (t.curRow, t.curCol) sx 0 sy q
  · have hne := hq.2.2.2.2
    rw [if_pos hq, if_pos hq]
    congr 1
    show (if t.numRows ≤ q.1 ∧ q.1 < t.curRow + sy then _ else (setCell t (t.curRow, t.curCol) (fun c => { c with spanX := sx, spanY := sy })).cell q) = _
    rw [hset, if_neg hne]
  · rw [if_neg hq, if_neg hq]
    show (if t.numRows ≤ q.1 ∧ q.1 < t.curRow + sy then _ else (setCell t (t.curRow, t.curCol) (fun c => { c with spanX := sx, spanY := sy })).cell q) = _
    rw [hset]

theorem Texts.setSpan {t t' : Table} {sx sy} (h : Texts t) (hi : Inside t) (hp : Proper t (.setSpan sx sy))
    (he : setSpan sx sy t = .ok t') : Texts t' := fun q => by
  rw [(setSpan_cells hi hp he).2 q]
  have hb : Tidy (if t.numRows ≤ q.1 ∧ q.1 < t.curRow + sy then {} else t.cell q).text ∧
      (if t.numRows ≤ q.1 ∧ q.1 < t.curRow + sy then ({} : Cell) else t.cell q).height =
        textHeight (if t.numRows ≤ q.1 ∧ q.1 < t.curRow + sy then {} else t.cell q).text ∧
      textWidth (if t.numRows ≤ q.1 ∧ q.1 < t.curRow + sy then {} else t.cell q).text =
        .ok (if t.numRows ≤ q.1 ∧ q.1 < t.curRow + sy then ({} : Cell) else t.cell q).width ∧
      ((if t.numRows ≤ q.1 ∧ q.1 < t.curRow + sy then ({} : Cell) else t.cell q).isSet = false →
        (if t.numRows ≤ q.1 ∧ q.1 < t.curRow + sy then ({} : Cell) else t.cell q).text = none) := by
    split
    · exact Texts.blank
    · exact h q
  by_cases hq : InSpan (t.curRow, t.curCol) sx 0 sy q
  · rw [if_pos hq]
    exact ⟨hb.1, hb.2.1, hb.2.2.1, fun h => by simp [adopt] at h⟩
  · rw [if_neg hq]
    split
    · exact Texts.blank
    · split
      · exact h _
      · exact h q

theorem Geo.setSpan {t t' : Table} {sx sy} (h : Geo t) (hi : Inside t) (hp : Proper t (.setSpan sx sy))
    (he : setSpan sx sy t = .ok t') : Geo t' := by
  obtain ⟨h1, h2, h3, h4, h5, _⟩ := setSpan_ok he
  obtain ⟨g1, g2⟩ := setSpan_cells hi hp he
  have hr := hi.row
  have hf := hp.2
  have hpar := hp.1
  generalize hP : (t.curRow, t.curCol) = p at *
  have hp1 : t.curRow = p.1 := by rw [← hP]
  have hp2 : t.curCol = p.2 := by rw [← hP]
  rw [hp1] at g1 g2 hr hf
  rw [hp2] at g2 h3 hf
  have hfree : ∀ q, InSpan p sx 0 sy q → q.1 < t.numRows → Free (t.cell q) := fun q ⟨a, b, c, d, f⟩ hq => by
    have := hf (q.1 - p.1) (q.2 - p.2) (by omega) (by omega) (fun e => f (by
        simp only [Prod.mk.injEq] at e
        exact Prod.ext (by omega) (by omega))) (by omega)
    rwa [show (p.1 + (q.1 - p.1), p.2 + (q.2 - p.2)) = q from Prod.ext (by simp only; omega) (by simp only; omega)] at this
  -- new cells
  have cp : t'.cell p = { t.cell p with spanX := sx, spanY := sy } := by
    rw [g2, if_neg (fun h => h.2.2.2.2 rfl), if_neg (by omega), if_pos rfl]
  have cin : ∀ q, InSpan p sx 0 sy q → (t'.cell q).parent = some p := fun q hq => by
    rw [g2, if_pos hq]; rfl
  have cold : ∀ q, q.1 < t.numRows → ¬ InSpan p sx 0 sy q → q ≠ p → t'.cell q = t.cell q := fun q hq h1 h2 => by
    rw [g2, if_neg h1, if_neg (by omega), if_neg h2]
  have cnew : ∀ q, t.numRows ≤ q.1 → q.1 < t'.numRows → ¬ InSpan p sx 0 sy q → t'.cell q = {} := fun q h1 h2 h3 => by
    rw [g2, if_neg h3, if_pos ⟨h1, by omega⟩]
  have op : owner t' p = p := by simp only [owner, cp, hpar, Option.getD_none]
  have oin : ∀ q, InSpan p sx 0 sy q → owner t' q = p := fun q hq => by simp only [owner, cin q hq, Option.getD_some]
  have pc : p.2 < maxCols := by omega
  refine ⟨fun r k hr' hk => ?_, fun r k hr' hk hpar' i j hi' hj => ?_⟩
  · by_cases hin : InSpan p sx 0 sy (r, k)
    · rw [oin _ hin, cp]
      obtain ⟨a, b, c, d, _⟩ := hin
      simp only at a b c d
      exact ⟨by omega, by simp only; omega, c, d, hpar⟩
    · by_cases hqp : (r, k) = p
      · rw [hqp, op, cp]
        subst hqp
        exact ⟨Nat.le_refl _, by simp only; omega, Nat.le_refl _, by simp only; omega, hpar⟩
      · rcases Nat.lt_or_ge r t.numRows with hr0 | hr0
        · have o1 := h.own r k hr0 hk
          have e : owner t' (r, k) = owner t (r, k) := by simp only [owner, cold (r, k) hr0 hin hqp]
          have ho1 : owner t (r, k) ≠ p := fun e => by
            rw [e, h4, h5] at o1
            exact hqp (Prod.ext (by simp only; omega) (by simp only; omega))
          have ho2 : ¬ InSpan p sx 0 sy (owner t (r, k)) := fun hin' => by
            obtain ⟨_, _, f1, f2⟩ := hfree _ hin' (by omega)
            rw [f1, f2] at o1
            have : (r, k) = owner t (r, k) := Prod.ext (by simp only; omega) (by simp only; omega)
            rw [← this] at hin'
            exact hin hin'
          rw [e, cold _ (by omega) ho2 ho1]
          exact o1
        · have e : t'.cell (r, k) = {} := cnew _ hr0 hr' hin
          have e' : owner t' (r, k) = (r, k) := by simp only [owner, e]; rfl
          rw [e', e]
          exact ⟨Nat.le_refl _, Nat.lt_succ_self _, Nat.le_refl _, Nat.lt_succ_self _, rfl⟩
  · have hin : ¬ InSpan p sx 0 sy (r, k) := fun hin => by rw [cin _ hin] at hpar'; cases hpar'
    by_cases hqp : (r, k) = p
    · subst hqp
      rw [cp] at hi' hj
      simp only at hi' hj
      by_cases h0 : i = 0 ∧ j = 0
      · rw [h0.1, h0.2]; exact op
      · exact oin _ ⟨by simp only; omega, by simp only; omega, by simp only; omega, by simp only; omega, fun e => h0 (by
          simp only [Prod.mk.injEq] at e; omega)⟩
    · rcases Nat.lt_or_ge r t.numRows with hr0 | hr0
      · rw [cold _ hr0 hin hqp] at hi' hj hpar'
        have o := h.rect r k hr0 hk hpar' i j hi' hj
        have hw := (hi.cell (r, k) hr0 hk).2.2.1
        simp only at hw
        have hne : (r + i, k + j) ≠ p := fun e => by
          rw [e] at o
          simp only [owner, hpar, Option.getD_none] at o
          exact hqp o.symm
        have hnin : ¬ InSpan p sx 0 sy (r + i, k + j) := fun hin' => by
          have := (hfree _ hin' (by simp only; omega)).2.1
          simp only [owner, this, Option.getD_none] at o
          rw [o] at hin'
          exact hin hin'
        simp only [owner, cold _ (show (r + i, k + j).1 < t.numRows by simp only; omega) hnin hne]
        exact o
      · have e : t'.cell (r, k) = {} := cnew _ hr0 hr' hin
        rw [e] at hi' hj
        have hi0 : i = 0 := Nat.lt_one_iff.1 hi'
        have hj0 : j = 0 := Nat.lt_one_iff.1 hj
        subst hi0 hj0
        simp only [owner, Nat.add_zero, e]
        rfl

/-- What holds of tables made by proper calls. -/
theorem Made.all {t : Table} (h : Made t) : Inside t ∧ Geo t ∧ Texts t := by
  induction h with
  | empty =>
    refine ⟨.empty, ⟨fun r k hr hk => ⟨Nat.le_refl _, Nat.lt_succ_self _, Nat.le_refl _, Nat.lt_succ_self _, rfl⟩,
      fun r k hr hk hp i j hi hj => ?_⟩, fun p => Texts.blank⟩
    have hi0 : i = 0 := Nat.lt_one_iff.1 hi
    have hj0 : j = 0 := Nat.lt_one_iff.1 hj
    subst hi0 hj0
    rfl
  | call _ hp he ih =>
    obtain ⟨h1, h2, h3⟩ := ih
    refine ⟨h1.call he, ?_⟩
    rcases call_keeps he with ⟨s, rfl⟩ | ⟨x, y, rfl⟩ | ⟨n, hk⟩
    · exact ⟨h2.addText he, h3.addText hp he⟩
    · exact ⟨h2.setSpan h1 hp he, h3.setSpan h1 hp he⟩
    · exact ⟨(h2.appendRows h1 n).keeps hk, (h3.appendRows n).keeps hk⟩

end Verif.LayoutSpec
