import Verif.Lemmas.LayoutShown

/-!
# Lemmas: tables of rows in which alignments are overridden
-/

namespace Verif.LayoutSpec
open Layout TextSpec

/-- A table with other alignments of its cells. -/
def mark (m : Nat × Nat → Option HAlign) (t : Table) : Table :=
  { t with cell := fun p => { t.cell p with hAlign := m p } }

theorem onRow_mark (a : HAlign) (m : Nat × Nat → Option HAlign) (t : Table) :
    onRow (fun c => { c with hAlign := some a }) (mark m t) =
      mark (fun p => if p.1 = t.curRow ∧ p.2 < maxCols then some a else m p) t := by
  unfold onRow mark
  congr 1
  funext p
  dsimp only
  split <;> rfl

theorem onCurrent_mark (a : HAlign) (m : Nat × Nat → Option HAlign) (t : Table) (h : t.curCol < maxCols) :
    onCurrent (fun c => { c with hAlign := some a }) (mark m t) = .ok (mark (put m (t.curRow, t.curCol) (some a)) t) := by
  rw [onCurrent, if_neg (show ¬ maxCols ≤ (mark m t).curCol from Nat.not_le.2 h)]
  unfold setCell mark
  congr 2
  funext p
  dsimp only
  by_cases e : p = (t.curRow, t.curCol)
  · rw [e, put_eq, put_eq]
  · rw [put_ne _ _ e, put_ne _ _ e]

theorem skipSet_mark (m : Nat × Nat → Option HAlign) (t : Table) (r n k : Nat) : skipSet (mark m t) r n k = skipSet t r n k := by
  induction n generalizing k with
  | zero => rfl
  | succ n ih => rw [skipSet, skipSet, ih]; rfl

theorem setCell_mark (m : Nat × Nat → Option HAlign) (t : Table) (p : Nat × Nat) (f : Cell → Cell)
    (hf : ∀ c a, f { c with hAlign := a } = { f c with hAlign := a }) : setCell (mark m t) p f = mark m (setCell t p f) := by
  unfold setCell mark
  congr 1
  funext q
  dsimp only
  by_cases e : q = p
  · subst e; rw [put_eq, put_eq, hf]
  · rw [put_ne _ _ e, put_ne _ _ e]

theorem addText_mark (s : Option Str) (m : Nat × Nat → Option HAlign) (t t' : Table) (h : addText s t = .ok t') :
    addText s (mark m t) = .ok (mark m t') := by
  rw [addText] at h ⊢
  split at h
  · cases h
  rename_i hc
  rw [if_neg (show ¬ maxCols ≤ (mark m t).curCol from hc)]
  obtain ⟨w, hw, h⟩ := Res.bind_eq_ok.1 h
  rw [hw, Res.bind_ok, setCell_mark _ _ _ _ (fun _ _ => rfl)]
  dsimp only at h ⊢
  rw [skipSet_mark]
  simp only [Res.pure_eq, Res.ok.injEq] at h ⊢
  rw [← h]
  rfl

theorem nextRow_mark (m : Nat × Nat → Option HAlign) (t : Table) (h : ¬ t.curRow + 1 < t.numRows) :
    nextRow (mark m t) = mark (fun p => if p.1 = t.numRows then none else m p) (nextRow t) := by
  rw [nextRow, nextRow, if_neg (show ¬ (mark m t).curRow + 1 < (mark m t).numRows from h), if_neg h]
  have : (appendRow (mark m t)).cell = (mark (fun p => if p.1 = t.numRows then none else m p) (appendRow t)).cell := by
    funext p
    by_cases e : p.1 = t.numRows
    · simp only [appendRow, mark, if_pos e]
      exact if_pos e
    · simp only [appendRow, mark, if_neg e]
      exact if_neg e
  show ({ appendRow (mark m t) with curRow := _, curCol := _, cell := (appendRow (mark m t)).cell } : Table) = _
  rw [this]
  rfl

/-- Cells of a row with marks. -/
theorem cells_marked (cells : List (Option HAlign × Option Str)) (hrow : ∀ c ∈ cells, Sized c.2) (t : Table) (m : Nat × Nat → Option HAlign)
    (hlen : t.curCol + cells.length ≤ maxCols) (hb : ∀ k, t.curCol ≤ k → t.cell (t.curRow, k) = {}) :
    ∃ t' m', calls (cells.map fun c => .add c.2) t = .ok t' ∧ calls (cells.flatMap markCell) (mark m t) = .ok (mark m' t') ∧
      (∀ i c, cells[i]? = some c → m' (t.curRow, t.curCol + i) = c.1.or (m (t.curRow, t.curCol + i))) ∧
      ∀ p, ¬ (p.1 = t.curRow ∧ t.curCol ≤ p.2) → m' p = m p := by
  induction cells generalizing t m with
  | nil => exact ⟨t, m, rfl, rfl, by simp, fun p _ => rfl⟩
  | cons c cells ih =>
    have hlen' : t.curCol + (cells.length + 1) ≤ maxCols := by simpa using hlen
    obtain ⟨t1, e, a1, a2, a3, a4, a5, a6, a7, a8, a9, a10⟩ := add_ok c.2 (hrow c List.mem_cons_self) t (by omega) hb
    obtain ⟨m1, e1, hm1, hm2⟩ : ∃ m1, calls (markCell c) (mark m t) = .ok (mark m1 t1) ∧
        m1 (t.curRow, t.curCol) = c.1.or (m (t.curRow, t.curCol)) ∧ ∀ p, p ≠ (t.curRow, t.curCol) → m1 p = m p := by
      obtain ⟨a, s⟩ := c
      cases a with
      | none =>
        refine ⟨m, ?_, rfl, fun _ _ => rfl⟩
        show (addText s (mark m t) >>= calls []) = _
        rw [addText_mark s m t t1 e]
        rfl
      | some a =>
        refine ⟨put m (t.curRow, t.curCol) (some a), ?_, put_eq _ _ _, fun p hp => put_ne _ _ hp⟩
        show (onCurrent (fun c => { c with hAlign := some a }) (mark m t) >>= calls [.add s]) = _
        rw [onCurrent_mark a m t (by omega), Res.bind_ok]
        show (addText s (mark _ t) >>= calls []) = _
        rw [addText_mark s _ t t1 e]
        rfl
    obtain ⟨t', m', e2, e3, h1, h2⟩ := ih (fun c hc => hrow c (List.mem_cons_of_mem _ hc)) t1 m1 (by omega)
      (fun k hk => by
        rw [a1, a10 _ (fun h => by simp only [Prod.mk.injEq] at h; omega)]
        exact hb k (by omega))
    rw [a1, a3] at h1 h2
    refine ⟨t', m', ?_, ?_, fun i x hi => ?_, fun p hp => ?_⟩
    · rw [List.map_cons, calls, call, e, Res.bind_ok, e2]
    · rw [List.flatMap_cons, calls_append, e1, Res.bind_ok, e3]
    · cases i with
      | zero =>
        simp only [List.getElem?_cons_zero, Option.some.injEq] at hi
        subst hi
        rw [Nat.add_zero, h2 _ (by simp only; omega)]
        exact hm1
      | succ i =>
        simp only [List.getElem?_cons_succ] at hi
        have := h1 i x hi
        rw [show t.curCol + 1 + i = t.curCol + (i + 1) by omega] at this
        rw [this, hm2 _ (fun h => by simp only [Prod.mk.injEq] at h; omega)]
    · rw [h2 p (by omega)]
      exact hm2 p fun h => hp (by rw [h]; exact ⟨rfl, Nat.le_refl _⟩)

/-- Only the texts of some rows. -/
def plainRows (rows : List (Option HAlign × List (Option HAlign × Option Str))) : List (List (Option Str)) :=
  rows.map fun r => r.2.map (·.2)

theorem markedCalls_ok (rows : List (Option HAlign × List (Option HAlign × Option Str)))
    (hrows : ∀ r ∈ rows, r.2.length ≤ maxCols ∧ ∀ c ∈ r.2, Sized c.2) (t : Table) (hf : Fresh t) (m : Nat × Nat → Option HAlign)
    (hm : ∀ k, m (t.curRow, k) = none) :
    ∃ t' m', calls (rowCalls (plainRows rows)) t = .ok t' ∧ calls (markedCalls rows) (mark m t) = .ok (mark m' t') ∧
      (∀ i r k c, rows[i]? = some r → r.2[k]? = some c → m' (t.curRow + i, k) = c.1.or r.1) ∧
      ∀ p, p.1 < t.curRow → m' p = m p := by
  induction rows generalizing t m with
  | nil => exact ⟨t, m, rfl, rfl, by simp, fun p _ => rfl⟩
  | cons row rows ih =>
    obtain ⟨hr1, hr2⟩ := hrows row List.mem_cons_self
    have hmax : 0 < maxCols := by decide
    -- the mark of the row
    obtain ⟨m0, e0, hm0, hm0'⟩ : ∃ m0, calls (row.1.map Call.overrideHRow).toList (mark m t) = .ok (mark m0 t) ∧
        (∀ k, k < maxCols → m0 (t.curRow, k) = row.1) ∧ ∀ p, p.1 ≠ t.curRow → m0 p = m p := by
      cases hr : row.1 with
      | none => exact ⟨m, rfl, fun k _ => hm k, fun _ _ => rfl⟩
      | some a =>
        refine ⟨fun p => if p.1 = t.curRow ∧ p.2 < maxCols then some a else m p, ?_, fun k hk => if_pos ⟨rfl, hk⟩,
          fun p hp => if_neg fun h => hp h.1⟩
        show calls [] (onRow (fun c => { c with hAlign := some a }) (mark m t)) = _
        rw [onRow_mark]
        rfl
    obtain ⟨t1, m1, e1, e2, h1, h2⟩ := cells_marked row.2 hr2 t m0 (by rw [hf.first]; omega) (fun k _ => hf.blank k)
    simp only [hf.first, Nat.zero_add] at h1 h2
    obtain ⟨t1', e1', a1, a2, -, -, -, -, -, -, -⟩ := addRow_ok (row.2.map (·.2)) (fun s hs => by
      obtain ⟨c, hc, rfl⟩ := List.mem_map.1 hs
      exact hr2 c hc) t (by rw [hf.first, List.length_map]; omega) (fun k _ => hf.blank k)
    rw [List.map_map] at e1'
    obtain rfl : t1 = t1' := Res.ok.inj (e1.symm.trans e1')
    have hn : ¬ t1.curRow + 1 < t1.numRows := by rw [a1, a2, hf.last]; omega
    have e3 : nextRow t1 = { appendRow t1 with curRow := t1.numRows, curCol := 0 } := by
      rw [nextRow, if_neg hn]
    have hf1 : Fresh (nextRow t1) := by
      rw [e3]
      exact ⟨rfl, rfl, fun k => by show (appendRow t1).cell (t1.numRows, k) = {}; rw [appendRow_cell, if_pos rfl]⟩
    have hcr : (nextRow t1).curRow = t.curRow + 1 := by
      rw [e3]
      show t1.numRows = _
      rw [a2, hf.last]
    have hlast := hf.last
    obtain ⟨t', m', e', e'', g1, g2⟩ := ih (fun r hr => hrows r (List.mem_cons_of_mem _ hr)) _ hf1
      (fun p => if p.1 = t1.numRows then none else m1 p) (fun k => by
        rw [hcr]
        exact if_pos (by simp only; omega))
    rw [hcr] at g1 g2
    refine ⟨t', m', ?_, ?_, fun i r k c hi hc => ?_, fun p hp => ?_⟩
    · rw [plainRows, List.map_cons, rowCalls, List.flatMap_cons, calls_append, calls_append, List.map_map]
      show ((calls (row.2.map fun c => .add c.2) t >>= calls [.nextRow]) >>= calls (rowCalls (plainRows rows))) = _
      rw [e1, Res.bind_ok]
      show ((call .nextRow t1 >>= calls []) >>= _) = _
      exact e'
    · rw [markedCalls, List.flatMap_cons, calls_append, calls_append, calls_append, e0, Res.bind_ok, e2, Res.bind_ok]
      show calls (markedCalls rows) (nextRow (mark m1 t1)) = _
      rw [nextRow_mark _ _ hn]
      exact e''
    · cases i with
      | zero =>
        simp only [List.getElem?_cons_zero, Option.some.injEq] at hi
        subst hi
        have hk : k < row.2.length := (List.getElem?_eq_some_iff.1 hc).1
        rw [Nat.add_zero, g2 _ (by simp only; omega), if_neg (by simp only; omega), h1 k c hc, hm0 k (by omega)]
      | succ i =>
        simp only [List.getElem?_cons_succ] at hi
        have := g1 i r k c hi hc
        rwa [show t.curRow + 1 + i = t.curRow + (i + 1) by omega] at this
    · rw [g2 p (by omega), if_neg (by omega), h2 p (by omega), hm0' p (by omega)]

theorem marked_made {μ : Str → Nat} (hμ : μ [] = 0) (hs : List HAlign) (rows : List (Option HAlign × List (Option HAlign × Option Str)))
    (h0 : hs.length ≤ maxCols) (hrows : ∀ r ∈ rows, r.2.length ≤ maxCols ∧ ∀ c ∈ r.2, Reads μ c.2) :
    ∃ t, calls (.setAligns hs [] :: markedCalls rows) empty = .ok t ∧ OfMarked μ (alignIn hs rows) (plainRows rows) t := by
  have hplain : ∀ r ∈ plainRows rows, r.length ≤ maxCols ∧ ∀ s ∈ r, Reads μ s := by
    intro r hr
    obtain ⟨r, h, rfl⟩ := List.mem_map.1 hr
    replace hr := h
    refine ⟨by rw [List.length_map]; exact (hrows r hr).1, fun s hs => ?_⟩
    obtain ⟨c, hc, rfl⟩ := List.mem_map.1 hs
    exact (hrows r hr).2 c hc
  let t0 : Table := { empty with hAligns := fun i => hs[i]?.getD .left, vAligns := fun _ => .top }
  have ha : setAligns hs [] empty = .ok t0 := by
    rw [setAligns, if_neg (by rintro (h | h); · omega
                              · simp at h)]
    rfl
  obtain ⟨t', m', e1, e2, h1, -⟩ := markedCalls_ok rows (fun r hr => ⟨(hrows r hr).1, fun c hc => ((hrows r hr).2 c hc).sized⟩) t0
    ⟨rfl, rfl, fun _ => rfl⟩ (fun _ => none) (fun _ => rfl)
  obtain ⟨u, eu, f, r1, r2, r3, r4, r5, r6, r7, _⟩ := rowCalls_ok (plainRows rows)
    (fun r hr => ⟨(hplain r hr).1, fun s hs => ((hplain r hr).2 s hs).sized⟩) t0 ⟨rfl, rfl, fun _ => rfl⟩
  rw [e1] at eu
  obtain rfl := Res.ok.inj eu
  have et : calls (.setAligns hs [] :: markedCalls rows) empty = .ok (mark m' t') := by
    show (do let t ← setAligns hs [] empty; calls (markedCalls rows) t) = _
    rw [ha, Res.bind_ok]
    exact e2
  have hc : ∀ c ∈ Call.setAligns hs [] :: markedCalls rows, Spanless c := by
    intro c hc
    rcases List.mem_cons.1 hc with rfl | hc
    · trivial
    · obtain ⟨row, h1, h2⟩ := List.mem_flatMap.1 hc
      rcases List.mem_append.1 h2 with h2 | h2
      · rcases List.mem_append.1 h2 with h2 | h2
        · rw [Option.mem_toList, Option.map_eq_some_iff] at h2
          obtain ⟨a, -, rfl⟩ := h2
          trivial
        · obtain ⟨x, hx, h3⟩ := List.mem_flatMap.1 h2
          rcases List.mem_append.1 h3 with h3 | h3
          · rw [Option.mem_toList, Option.map_eq_some_iff] at h3
            obtain ⟨a, -, rfl⟩ := h3
            trivial
          · rw [List.mem_singleton.1 h3]
            trivial
      · rw [List.mem_singleton.1 h2]
        trivial
  have hrow0 : t0.curRow = 0 := rfl
  simp only [hrow0, Nat.zero_add] at r7 h1
  have r1 : t'.numRows = 1 + (plainRows rows).length := r1
  have last : ∀ k, t'.cell ((plainRows rows).length, k) = {} := fun k => by
    have h1 := f.last
    have h2 := f.blank k
    rwa [show t'.curRow = (plainRows rows).length by omega] at h2
  have cases_of : ∀ i k, i < t'.numRows → (∃ row s, (plainRows rows)[i]? = some row ∧ row[k]? = some s ∧ Holds (t'.cell (i, k)) s) ∨
      (t'.cell (i, k) = {} ∧ ∀ row, (plainRows rows)[i]? = some row → row.length ≤ k) := by
    intro i k hi
    rcases Nat.lt_or_ge i (plainRows rows).length with hlt | hge
    · have hr := List.getElem?_eq_getElem hlt
      cases hk : (plainRows rows)[i][k]? with
      | some s => exact .inl ⟨_, s, hr, hk, (r7 i _ hr).1 k s hk⟩
      | none =>
        refine .inr ⟨(r7 i _ hr).2 k (List.getElem?_eq_none_iff.1 hk), fun row h => ?_⟩
        rw [hr] at h
        cases h
        exact List.getElem?_eq_none_iff.1 hk
    · obtain rfl : i = (plainRows rows).length := by omega
      exact .inr ⟨last k, fun row h => by rw [List.getElem?_eq_none hge] at h; cases h⟩
  refine ⟨_, et, hμ, Inside.empty.calls et, fun r k hr => ?_, fun p => calls_single hc empty_single et p, ?_, ?_, fun k => ?_, fun k => ?_,
    fun r => ?_, fun i row k hi => ?_, fun i row k hi hk => ?_, fun i k hi => ?_, fun k => ?_⟩
  · show Reads μ (t'.cell (r, k)).text ∧ (t'.cell (r, k)).height = textHeight (t'.cell (r, k)).text ∧
      textWidth (t'.cell (r, k)).text = .ok (t'.cell (r, k)).width ∧ ((t'.cell (r, k)).isSet = false → (t'.cell (r, k)).text = none)
    rcases cases_of r k hr with ⟨row, s, g1, g2, g3⟩ | ⟨g, -⟩
    · rw [g3.2.1, g3.1]
      exact ⟨(hplain row (List.mem_of_getElem? g1)).2 s (List.mem_of_getElem? g2), g3.2.2.2.2.1, g3.2.2.2.2.2, fun h => by cases h⟩
    · rw [g]
      exact ⟨trivial, rfl, rfl, fun _ => rfl⟩
  · show t'.numRows = _
    omega
  · show t'.numCols = _
    rw [r2]; exact Nat.zero_max _
  · show t'.vAligns k = _
    rw [r4]
  · show t'.colCounter k = _
    rw [r5]; rfl
  · show t'.rowCounter r = _
    rcases r6 r with h | h
    · exact h
    · exact h
  · show (t'.cell (i, k)).text = _
    cases hk : row[k]? with
    | some s => exact ((r7 i row hi).1 k s hk).2.1
    | none => rw [(r7 i row hi).2 k (List.getElem?_eq_none_iff.1 hk)]; rfl
  · show (m' (i, k)).getD (t'.hAligns k) = _
    rw [r3]
    rw [plainRows, List.getElem?_map, Option.map_eq_some_iff] at hi
    obtain ⟨r, hr, rfl⟩ := hi
    rw [List.length_map] at hk
    rw [h1 i r k r.2[k] hr (List.getElem?_eq_getElem hk)]
    simp only [alignIn, hr, Option.bind_some, List.getElem?_eq_getElem hk]
    obtain ⟨a, cells⟩ := r
    dsimp only
    generalize cells[k]'hk = c
    obtain ⟨b, s⟩ := c
    cases b <;> cases a <;> rfl
  · show (t'.cell (i, k)).vAlign = none
    rcases cases_of i k (by omega) with ⟨row, s, g1, g2, g3⟩ | ⟨g, -⟩
    · exact g3.2.2.2.1
    · rw [g]
  · show (t'.cell (_, k)).isSet = false ∧ (t'.cell (_, k)).left = none
    rw [last]
    exact ⟨rfl, rfl⟩

/-- Texts without escape sequences: `console_strlen` counts bytes. -/
theorem reads_bytes {s : Str} (h1 : s.head? ≠ some '\n') (h2 : Char.ofNat 27 ∉ s) : Reads List.length (some s) := by
  refine ⟨h1, fun ls hls l hl e he => ?_⟩
  have hsub : '\n' ∉ l ∧ ∀ c ∈ l, c ∈ s := by
    clear h1 h2
    induction hls with
    | last hn =>
      rw [List.mem_singleton.1 hl]
      exact ⟨hn, fun _ h => h⟩
    | @more a b ls ha hb ih =>
      rcases List.mem_cons.1 hl with rfl | hl
      · exact ⟨ha, fun c hc => by simp [hc]⟩
      · obtain ⟨i1, i2⟩ := ih hl
        exact ⟨i1, fun c hc => by simp [i2 c hc]⟩
  have hesc : Char.ofNat 27 ∉ l := fun h => h2 (hsub.2 _ h)
  have key : ∀ (l : Str), Char.ofNat 27 ∉ l → '\n' ∉ l → skipAnsi (l ++ e) = .ok (l ++ e) ∧
      ∀ n, l.length ≤ n → strlenLoop n (l ++ e) = .ok l.length := by
    intro l
    induction l with
    | nil =>
      intro _ _
      refine ⟨?_, fun n _ => strlenLoop_end he n⟩
      rcases he with rfl | ⟨u, rfl⟩
      · rfl
      · rw [List.nil_append, skipAnsi, if_neg (by decide)]
    | cons c l ih =>
      intro g1 g2
      simp only [List.mem_cons, not_or] at g1 g2
      obtain ⟨k1, k2⟩ := ih g1.2 g2.2
      refine ⟨?_, fun n hn => ?_⟩
      · simp only [List.cons_append, skipAnsi]
        rw [if_neg (fun h => g1.1 h.symm)]
      · cases n with
        | zero => simp at hn
        | succ n =>
          simp only [List.cons_append, strlenLoop, if_neg (Ne.symm g2.1), k1, Res.bind_ok, k2 n (by simpa using hn)]
          rfl
  obtain ⟨k1, k2⟩ := key l hesc hsub.1
  rw [consoleStrlen, k1, Res.bind_ok, k2 _ (by simp)]

end Verif.LayoutSpec
