import Verif.Spec.LayoutOrder
import Verif.Lemmas.LayoutInv

/-!
# Lemmas: order of the texts of a table
-/

namespace Verif.LayoutSpec
open Layout

theorem Before.trans {a b c : Nat × Nat} (h : Before a b) (h' : Before b c) : Before a c := by
  simp only [Before] at *; omega

/-! ### Spans take free cells only -/

/-- No text changes; cells other than `q` that are not set may be given to spans, and rows may be added. -/
structure Grows (q : Nat × Nat) (t t' : Table) : Prop where
  rows : t.numRows ≤ t'.numRows
  old : ∀ p, p.1 < t.numRows → (t'.cell p).text = (t.cell p).text ∧
    ((t'.cell p).isSet = (t.cell p).isSet ∧ (t'.cell p).parent = (t.cell p).parent ∨
      p ≠ q ∧ (t.cell p).isSet = false ∧ (t'.cell p).isSet = true ∧ (t'.cell p).parent ≠ none)
  new : ∀ p, t.numRows ≤ p.1 → p.1 < t'.numRows →
    (t'.cell p).isSet = false ∧ (t'.cell p).parent = none ∨ (t'.cell p).isSet = true ∧ (t'.cell p).parent ≠ none

theorem Grows.refl (q) (t : Table) : Grows q t t :=
  ⟨Nat.le_refl _, fun _ _ => ⟨rfl, .inl ⟨rfl, rfl⟩⟩, fun _ _ _ => by omega⟩

theorem Grows.trans {q} {a b c : Table} (h : Grows q a b) (h' : Grows q b c) : Grows q a c := by
  refine ⟨Nat.le_trans h.rows h'.rows, fun p hp => ?_, fun p h1 h2 => ?_⟩
  · obtain ⟨x1, x2⟩ := h.old p hp
    obtain ⟨y1, y2⟩ := h'.old p (Nat.lt_of_lt_of_le hp h.rows)
    refine ⟨y1.trans x1, ?_⟩
    rcases y2 with ⟨e1, e2⟩ | ⟨y2, y3, y4, y5⟩
    · rw [e1, e2]; exact x2
    · rcases x2 with ⟨e1, e2⟩ | ⟨_, _, x4, _⟩
      · exact .inr ⟨y2, e1 ▸ y3, y4, y5⟩
      · rw [x4] at y3; cases y3
  · rcases Nat.lt_or_ge p.1 b.numRows with hb | hb
    · obtain ⟨_, y2⟩ := h'.old p hb
      rcases y2 with ⟨e1, e2⟩ | ⟨_, _, y4, y5⟩
      · rw [e1, e2]; exact h.new p h1 hb
      · exact .inr ⟨y4, y5⟩
    · exact h'.new p hb h2

theorem Grows.keeps {q} {t t' : Table} (h : Keeps t t') : Grows q t t' :=
  ⟨Nat.le_of_eq h.rows.symm, fun p _ => ⟨(h.cell p).text, .inl ⟨(h.cell p).isSet, (h.cell p).parent⟩⟩, fun p h1 h2 => by
    rw [h.rows] at h2; omega⟩

theorem Grows.appendRow (q) (t : Table) : Grows q t (appendRow t) := by
  refine ⟨Nat.le_succ _, fun p hp => ?_, fun p h1 h2 => ?_⟩
  · rw [appendRow_cell, if_neg (by omega)]
    exact ⟨rfl, .inl ⟨rfl, rfl⟩⟩
  · have h2 : p.1 < t.numRows + 1 := h2
    rw [appendRow_cell, if_pos (by omega)]
    exact .inl ⟨rfl, rfl⟩

theorem Grows.adopt (q : Nat × Nat) (t : Table) {i j : Nat} (hij : ¬ (i = 0 ∧ j = 0))
    (hs : ¬ (t.cell (q.1 + i, q.2 + j)).isSet = true) : Grows q t (setCell t (q.1 + i, q.2 + j) (adopt q i j)) := by
  refine ⟨Nat.le_refl _, fun p _ => ?_, fun p h1 h2 => ?_⟩
  · by_cases e : p = (q.1 + i, q.2 + j)
    · subst e
      simp only [setCell, put_eq]
      refine ⟨rfl, .inr ⟨fun e => ?_, by simpa using hs, rfl, by simp [Layout.adopt]⟩⟩
      have e1 := congrArg Prod.fst e
      have e2 := congrArg Prod.snd e
      simp only at e1 e2
      omega
    · simp only [setCell, put_ne _ _ e]
      exact ⟨trivial, .inl ⟨trivial, trivial⟩⟩
  · have h2 : p.1 < t.numRows := h2
    omega

theorem Grows.spans (q : Nat × Nat) (t : Table) (sx sy : Nat) :
    Grows q t (setCell t q fun c => { c with spanY := sy, spanX := sx }) := by
  refine ⟨Nat.le_refl _, fun p _ => ?_, fun p h1 h2 => ?_⟩
  · by_cases e : p = q
    · subst e
      simp only [setCell, put_eq]
      exact ⟨trivial, .inl ⟨trivial, trivial⟩⟩
    · simp only [setCell, put_ne _ _ e]
      exact ⟨trivial, .inl ⟨trivial, trivial⟩⟩
  · have h2 : p.1 < t.numRows := h2
    omega

theorem Grows.spanRow (q : Nat × Nat) (i n j : Nat) (t : Table) : Grows q t (spanRow q i n j t).1 := by
  induction n generalizing j t with
  | zero => exact .refl _ _
  | succ n ih =>
    rw [Layout.spanRow]
    split
    · exact ih _ _
    · rename_i hij
      split
      · exact .spans q t j i
      · rename_i hs
        exact (Grows.adopt q t hij hs).trans (ih _ _)

theorem Grows.spanRows (q : Nat × Nat) (sx n i : Nat) (t : Table) : Grows q t (spanRows q sx n i t) ∧
    (spanRows q sx n i t).curRow = t.curRow ∧ (spanRows q sx n i t).curCol = t.curCol := by
  induction n generalizing i t with
  | zero => exact ⟨.refl _ _, rfl, rfl⟩
  | succ n ih =>
    have h1 := Grows.spanRow q i sx 0 t
    obtain ⟨_, _, c1, c2, _⟩ := spanRow_frame q i sx 0 t
    rw [Layout.spanRows]
    generalize Layout.spanRow q i sx 0 t = x at h1 c1 c2
    obtain ⟨t', b⟩ := x
    cases b with
    | true => exact ⟨h1, c1, c2⟩
    | false =>
      simp only
      split
      · obtain ⟨g1, g2, g3⟩ := ih (i + 1) (Layout.appendRow t')
        exact ⟨h1.trans ((Grows.appendRow q t').trans g1), g2.trans c1, g3.trans c2⟩
      · obtain ⟨g1, g2, g3⟩ := ih (i + 1) t'
        exact ⟨h1.trans g1, g2.trans c1, g3.trans c2⟩

/-! ### The order -/

/-- Texts `ss` were added at the positions `ps`, all before the current one. -/
structure Order (t : Table) (ps : List (Nat × Nat)) (ss : List (Option Str)) : Prop where
  filled : ∀ p, p.1 < t.numRows → p.2 < maxCols → (Filled (t.cell p) ↔ p ∈ ps)
  range : ∀ p ∈ ps, p.1 < t.numRows ∧ p.2 < maxCols
  sorted : ps.Pairwise Before
  text : ps.map (fun p => (t.cell p).text) = ss
  before : ∀ p ∈ ps, Before p (t.curRow, t.curCol)
  free : t.curCol < maxCols → (t.cell (t.curRow, t.curCol)).isSet = false
  child : ∀ p, p.1 < t.numRows → (t.cell p).parent ≠ none → (t.cell p).isSet = true

theorem Order.empty : Order empty [] [] where
  filled p _ _ := by simp [Filled, Layout.empty]
  range := by simp
  sorted := .nil
  text := rfl
  before := by simp
  free _ := rfl
  child p _ h := absurd rfl h

/-- Calls that add no text. -/
theorem Order.grows {t t' ps ss} (h : Order t ps ss) (hg : Grows (t.curRow, t.curCol) t t')
    (hb : ∀ p ∈ ps, Before p (t'.curRow, t'.curCol))
    (hf : t'.curCol < maxCols → (t'.cell (t'.curRow, t'.curCol)).isSet = false) : Order t' ps ss where
  filled p h1 h2 := by
    rcases Nat.lt_or_ge p.1 t.numRows with hp | hp
    · rw [← h.filled p hp h2]
      rcases (hg.old p hp).2 with ⟨e1, e2⟩ | ⟨_, x2, x3, x4⟩
      · rw [Filled, Filled, e1, e2]
      · exact ⟨fun e => absurd e.2 x4, fun e => by rw [e.1] at x2; cases x2⟩
    · constructor
      · intro e
        rcases hg.new p hp h1 with ⟨x, _⟩ | ⟨_, x⟩
        · rw [e.1] at x; cases x
        · exact absurd e.2 x
      · intro e
        have := (h.range p e).1
        omega
  range p hp := ⟨Nat.lt_of_lt_of_le (h.range p hp).1 hg.rows, (h.range p hp).2⟩
  sorted := h.sorted
  text := by
    rw [← h.text]
    exact List.map_congr_left fun p hp => (hg.old p (h.range p hp).1).1
  before := hb
  free := hf
  child p h1 h2 := by
    rcases Nat.lt_or_ge p.1 t.numRows with hp | hp
    · rcases (hg.old p hp).2 with ⟨e1, e2⟩ | ⟨_, _, x3, _⟩
      · rw [e1]; exact h.child p hp (e2 ▸ h2)
      · exact x3
    · rcases hg.new p hp h1 with ⟨_, x⟩ | ⟨x, _⟩
      · exact absurd x h2
      · exact x

/-- Calls that do not move. -/
theorem Order.stays {t t' ps ss} (h : Order t ps ss) (hi : t.curRow < t.numRows) (hg : Grows (t.curRow, t.curCol) t t')
    (hr : t'.curRow = t.curRow) (hc : t'.curCol = t.curCol) : Order t' ps ss := by
  refine h.grows hg (by rw [hr, hc]; exact h.before) fun hlt => ?_
  rw [hr, hc]
  rcases (hg.old (t.curRow, t.curCol) hi).2 with ⟨e1, _⟩ | ⟨x, _⟩
  · rw [e1]; exact h.free (hc ▸ hlt)
  · exact absurd rfl x

theorem skipSet_free (t : Table) (r n k : Nat) (h : skipSet t r n k < k + n) : (t.cell (r, skipSet t r n k)).isSet = false := by
  induction n generalizing k with
  | zero => simp [skipSet] at h
  | succ n ih =>
    rw [skipSet] at h ⊢
    split
    · rename_i hs
      rw [if_pos hs] at h
      exact ih _ (by omega)
    · rename_i hs
      simpa using hs

theorem skipSet_ge (t : Table) (r n k : Nat) : k ≤ skipSet t r n k := by
  induction n generalizing k with
  | zero => exact Nat.le_refl _
  | succ n ih =>
    rw [skipSet]
    split
    · exact Nat.le_trans (Nat.le_succ _) (ih _)
    · exact Nat.le_refl _

theorem skipSet_set (t : Table) (r n k : Nat) (h : (t.cell (r, k)).isSet = true) (hn : n ≠ 0) : k < skipSet t r n k := by
  cases n with
  | zero => exact absurd rfl hn
  | succ n =>
    rw [skipSet, if_pos h]
    exact skipSet_ge ..

theorem Order.nextRow {t ps ss} (h : Order t ps ss) (hi : Inside t) : Order (nextRow t) ps ss := by
  rw [Layout.nextRow]
  split
  · refine h.grows (.keeps ⟨rfl, Nat.le_refl _, fun _ => .rfl⟩) (fun p hp => ?_) fun hlt => ?_
    · have := h.before p hp
      simp only [Before] at *; omega
    · exact skipSet_free t _ maxCols 0 (by simpa using hlt)
  · rename_i hr
    have hrow := hi.row
    refine h.grows ((Grows.appendRow _ t).trans (.keeps ⟨rfl, Nat.le_refl _, fun _ => .rfl⟩)) (fun p hp => ?_) fun _ => ?_
    · have := h.before p hp
      simp only [Before] at *; omega
    · show ((Layout.appendRow t).cell (t.numRows, 0)).isSet = false
      rw [appendRow_cell, if_pos rfl]

theorem Order.add {t t' ps ss s} (h : Order t ps ss) (hi : Inside t) (he : addText s t = .ok t') :
    Order t' (ps ++ [(t.curRow, t.curCol)]) (ss ++ [s]) := by
  have hrow := hi.row
  simp only [addText] at he
  split at he
  · cases he
  rename_i hc
  obtain ⟨w, hw, he⟩ := Res.bind_eq_ok.1 he
  simp only [Res.pure_eq, Res.ok.injEq] at he
  subst he
  have hfree := h.free (by omega)
  have hpar : (t.cell (t.curRow, t.curCol)).parent = none := by
    by_contra hne
    rw [h.child _ hrow hne] at hfree
    cases hfree
  have hnot : (t.curRow, t.curCol) ∉ ps := fun hm => by
    have := h.before _ hm
    simp only [Before] at this; omega
  refine ⟨fun p h1 h2 => ?_, fun p hp => ?_, ?_, ?_, fun p hp => ?_, fun hlt => ?_, fun p h1 h2 => ?_⟩
  · rw [List.mem_append, List.mem_singleton]
    by_cases e : p = (t.curRow, t.curCol)
    · subst e
      simp only [setCell, put_eq, Filled, hpar, and_self, or_true]
    · simp only [setCell, put_ne _ _ e, e, or_false]
      exact h.filled p h1 h2
  · rcases List.mem_append.1 hp with hp | hp
    · exact h.range p hp
    · rw [List.mem_singleton.1 hp]; exact ⟨hrow, by simp only; omega⟩
  · refine List.pairwise_append.2 ⟨h.sorted, List.pairwise_singleton _ _, fun a ha b hb => ?_⟩
    rw [List.mem_singleton.1 hb]
    exact h.before a ha
  · rw [List.map_append, ← h.text]
    congr 1
    · refine List.map_congr_left fun p hp => ?_
      simp only [setCell]
      rw [put_ne _ _ (fun e : p = (t.curRow, t.curCol) => hnot (e ▸ hp))]
    · simp only [List.map_cons, List.map_nil, setCell, put_eq]
  · have hlt := skipSet_set (setCell t (t.curRow, t.curCol) fun c =>
      { c with isSet := true, text := s, height := textHeight s, width := w }) t.curRow (maxCols - t.curCol) t.curCol
      (by simp only [setCell, put_eq]) (by omega)
    rcases List.mem_append.1 hp with hp | hp
    · exact (h.before p hp).trans (.inr ⟨rfl, hlt⟩)
    · rw [List.mem_singleton.1 hp]; exact .inr ⟨rfl, hlt⟩
  · exact skipSet_free (setCell t (t.curRow, t.curCol) fun c =>
      { c with isSet := true, text := s, height := textHeight s, width := w }) t.curRow (maxCols - t.curCol) t.curCol
      (by have : _ < maxCols := hlt
          simp only at this
          omega)
  · by_cases e : p = (t.curRow, t.curCol)
    · subst e
      simp only [setCell, put_eq]
    · simp only [setCell, put_ne _ _ e] at h2 ⊢
      exact h.child p h1 h2

theorem setPosition_inside {t t' : Table} {x y} (hy : y < t.numRows) (h : setPosition x y t = .ok t') :
    x < maxCols ∧ t' = { t with curCol := x, curRow := y } := by
  rw [setPosition] at h
  split at h
  · cases h
  · rw [show y + 1 - t.numRows = 0 by omega] at h
    simp only [appendRows, Res.ok.injEq] at h
    exact ⟨by omega, h.symm⟩

/-- What `make_boxed` does. -/
theorem makeBoxed_eq {s} {t t' : Table} (hi : Inside t) (h : makeBoxed s t = .ok t') :
    max t.numCols 1 < maxCols ∧ t'.cell = t.cell ∧ t'.numRows = t.numRows ∧ t'.numCols = max t.numCols 1 + 1 ∧
      t'.curRow = t.numRows - 1 ∧ t'.curCol = max t.numCols 1 ∧
      (∀ r, t'.rowBorder r = if r = 0 ∨ r = t.numRows - 1 then s else t.rowBorder r) ∧
      (∀ k, t'.colBorder k = if k = 0 ∨ k = max t.numCols 1 then s else t.colBorder k) ∧
      t'.hAligns = t.hAligns ∧ t'.vAligns = t.vAligns := by
  have hr := hi.row
  obtain ⟨t1, t2, t3, t4, h1, h2, h3, h4, rfl⟩ := makeBoxed_ok h
  obtain ⟨_, rfl⟩ := setPosition_inside (by omega) h1
  rw [setVline, if_neg (by decide)] at h2
  simp only [Res.ok.injEq] at h2
  subst h2
  obtain ⟨g1, rfl⟩ := setPosition_inside (by simp only [setHline]; omega) h3
  have hn : (if t.numCols ≤ 0 then 0 + 1 else t.numCols) = max t.numCols 1 := by split <;> omega
  simp only [setHline, hn] at g1 h4
  rw [setVline, if_neg (by omega)] at h4
  simp only [Res.ok.injEq, le_refl, if_true] at h4
  subst h4
  refine ⟨g1, rfl, rfl, rfl, rfl, rfl, fun r => ?_, fun k => ?_, rfl, rfl⟩
  · simp only [setHline, put]
    by_cases e1 : r = t.numRows - 1
    · rw [if_pos e1, if_pos (.inr e1)]
    · rw [if_neg e1]
      by_cases e2 : r = 0
      · rw [if_pos e2, if_pos (.inl e2)]
      · rw [if_neg e2, if_neg (by omega)]
  · simp only [setHline, put]
    by_cases e1 : k = max t.numCols 1
    · rw [if_pos e1, if_pos (.inr e1)]
    · rw [if_neg e1]
      by_cases e2 : k = 0
      · rw [if_pos e2, if_pos (.inl e2)]
      · rw [if_neg e2, if_neg (by omega)]

theorem Order.call {t t' : Table} {ps ss} {c : Call} (h : Order t ps ss) (hi : Inside t) (hc : ∀ x y, c ≠ .setPosition x y)
    (he : call c t = .ok t') : ∃ ps', Order t' ps' (ss ++ addedTexts [c]) := by
  have keep : ∀ {t' : Table}, Keeps t t' ∧ t'.curRow = t.curRow ∧ t'.curCol = t.curCol → Order t' ps ss :=
    fun ⟨h1, h2, h3⟩ => h.stays hi.row (.keeps h1) h2 h3
  cases c with
  | setPosition x y => exact absurd rfl (hc x y)
  | nextRow => cases he; exact ⟨ps, by show Order _ ps (ss ++ []); rw [List.append_nil]; exact h.nextRow hi⟩
  | add s => exact ⟨_, h.add hi he⟩
  | setAligns hs vs =>
    simp only [Layout.call, setAligns] at he
    split at he
    · cases he
    · simp only [Res.ok.injEq] at he
      subst he
      exact ⟨ps, by show Order _ ps (ss ++ []); rw [List.append_nil]; exact keep ⟨⟨rfl, Nat.le_refl _, fun _ => .rfl⟩, rfl, rfl⟩⟩
  | overrideH a =>
    obtain ⟨h1, h2, h3, _⟩ := onCurrent_ok (fun c => .hAlign c _) he
    exact ⟨ps, by show Order _ ps (ss ++ []); rw [List.append_nil]; exact keep ⟨h1, h2, h3⟩⟩
  | overrideV a =>
    obtain ⟨h1, h2, h3, _⟩ := onCurrent_ok (fun c => .vAlign c _) he
    exact ⟨ps, by show Order _ ps (ss ++ []); rw [List.append_nil]; exact keep ⟨h1, h2, h3⟩⟩
  | overrideHRow a =>
    cases he
    exact ⟨ps, by show Order _ ps (ss ++ []); rw [List.append_nil]; exact keep ⟨onRow_keeps t fun c => .hAlign c _, rfl, rfl⟩⟩
  | overrideVRow a =>
    cases he
    exact ⟨ps, by show Order _ ps (ss ++ []); rw [List.append_nil]; exact keep ⟨onRow_keeps t fun c => .vAlign c _, rfl, rfl⟩⟩
  | setHline s => cases he; exact ⟨ps, by show Order _ ps (ss ++ []); rw [List.append_nil]; exact keep ⟨setHline_keeps t s, rfl, rfl⟩⟩
  | setVline i s =>
    obtain ⟨h1, h2, h3, _⟩ := setVline_ok he
    exact ⟨ps, by show Order _ ps (ss ++ []); rw [List.append_nil]; exact keep ⟨h1, h2, h3⟩⟩
  | makeBoxed s =>
    obtain ⟨b1, b2, b3, b4, b5, b6, _⟩ := makeBoxed_eq hi he
    refine ⟨ps, ?_⟩
    show Order _ ps (ss ++ [])
    rw [List.append_nil]
    have hrow := hi.row
    have set_lt : ∀ p, p.1 < t.numRows → p.2 < maxCols → (t.cell p).isSet = true → p.2 < t.numCols := fun p h1 h2 h3 =>
      (hi.cell p h1 h2).2.2.2 h3
    refine h.grows (.keeps ⟨b3, by omega, fun p => by rw [b2]; exact .rfl⟩) (fun p hp => ?_) fun _ => ?_
    · obtain ⟨r1, r2⟩ := h.range p hp
      have := set_lt p r1 r2 ((h.filled p r1 r2).2 hp).1
      rw [b5, b6]
      simp only [Before]; omega
    · rw [b2, b5, b6]
      cases hs : (t.cell (t.numRows - 1, max t.numCols 1)).isSet with
      | false => rfl
      | true =>
        have := set_lt (t.numRows - 1, max t.numCols 1) (by simp only; omega) b1 hs
        simp only at this
        omega
  | setAllVlines s =>
    obtain ⟨h1, h2, h3, _⟩ := vlinesLoop_ok _ _ he
    exact ⟨ps, by show Order _ ps (ss ++ []); rw [List.append_nil]; exact keep ⟨h1, h2, h3⟩⟩
  | overrideLeft s =>
    obtain ⟨_, h1, h2, h3, _⟩ := overrideLeft_ok he
    exact ⟨ps, by show Order _ ps (ss ++ []); rw [List.append_nil]; exact keep ⟨h1, h2, h3⟩⟩
  | overrideAbove s =>
    obtain ⟨_, h1, h2, h3, _⟩ := overrideAbove_ok he
    exact ⟨ps, by show Order _ ps (ss ++ []); rw [List.append_nil]; exact keep ⟨h1, h2, h3⟩⟩
  | setSpan x y =>
    obtain ⟨_, _, _, _, _, rfl⟩ := setSpan_ok he
    refine ⟨ps, ?_⟩
    show Order _ ps (ss ++ [])
    rw [List.append_nil]
    obtain ⟨g1, g2, g3⟩ := Grows.spanRows (t.curRow, t.curCol) x y 0
      { setCell t (t.curRow, t.curCol) fun c => { c with spanX := x, spanY := y } with
        numCols := max (t.curCol + x) t.numCols }
    refine h.stays hi.row (Grows.trans ?_ g1) g2 g3
    have := Grows.spans (t.curRow, t.curCol) t x y
    exact ⟨this.rows, this.old, this.new⟩

theorem addedTexts_cons (c : Call) (cs : List Call) : addedTexts (c :: cs) = addedTexts [c] ++ addedTexts cs := by
  cases c <;> rfl

theorem Order.calls {cs : List Call} {t t' : Table} {ps ss} (h : Order t ps ss) (hi : Inside t)
    (hc : ∀ c ∈ cs, ∀ x y, c ≠ .setPosition x y) (he : calls cs t = .ok t') : ∃ ps', Order t' ps' (ss ++ addedTexts cs) := by
  induction cs generalizing t ps ss with
  | nil =>
    simp only [Layout.calls, Res.ok.injEq] at he
    subst he
    exact ⟨ps, by rw [addedTexts, List.append_nil]; exact h⟩
  | cons c cs ih =>
    obtain ⟨t1, h1, he⟩ := Res.bind_eq_ok.1 he
    obtain ⟨ps1, o1⟩ := h.call hi (hc c List.mem_cons_self) h1
    obtain ⟨ps2, o2⟩ := ih o1 (hi.call h1) (fun c hm => hc c (List.mem_cons_of_mem _ hm)) he
    exact ⟨ps2, by rw [addedTexts_cons, ← List.append_assoc]; exact o2⟩

/-! ### Lines between all columns -/

theorem vlinesLoop_eq {s} (n i : Nat) {t t' : Table} (hn : i + n ≤ t.numCols) (h : vlinesLoop s n i t = .ok t') :
    t'.cell = t.cell ∧ t'.numRows = t.numRows ∧ t'.numCols = t.numCols ∧ t'.rowBorder = t.rowBorder ∧
      (∀ k, t'.colBorder k = if i ≤ k ∧ k < i + n then s else t.colBorder k) ∧ t'.hAligns = t.hAligns ∧ t'.vAligns = t.vAligns := by
  induction n generalizing i t with
  | zero =>
    simp only [vlinesLoop, Res.ok.injEq] at h
    subst h
    exact ⟨rfl, rfl, rfl, rfl, fun k => by rw [if_neg (by omega)], rfl, rfl⟩
  | succ n ih =>
    obtain ⟨t1, h1, h⟩ := Res.bind_eq_ok.1 h
    rw [setVline] at h1
    split at h1
    · cases h1
    simp only [Res.ok.injEq, if_neg (show ¬ t.numCols ≤ i by omega)] at h1
    subst h1
    obtain ⟨a1, a2, a3, a4, a5, a6, a7⟩ := ih (i + 1) (by simp only; omega) h
    refine ⟨a1, a2, a3, a4, fun k => ?_, a6, a7⟩
    rw [a5]
    simp only [put]
    by_cases e : k = i
    · rw [if_neg (by omega), if_pos e, if_pos (by omega)]
    · by_cases e2 : i + 1 ≤ k ∧ k < i + 1 + n
      · rw [if_pos e2, if_pos (by omega)]
      · rw [if_neg e2, if_neg e, if_neg (by omega)]

end Verif.LayoutSpec
