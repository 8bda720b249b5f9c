import Verif.Lemmas.LayoutOrder
import Verif.Lemmas.LayoutGrid

/-!
# Lemmas: boxes
-/

namespace Verif.LayoutSpec
open Layout TextSpec

/-- No line of its own. -/
def Bare1 (c : Cell) : Prop := c.left = none ∧ c.above = none

theorem appendRows_bare1 (n : Nat) {t : Table} (h : ∀ p, Bare1 (t.cell p)) (p) : Bare1 ((appendRows n t).cell p) := by
  induction n generalizing t with
  | zero => exact h p
  | succ n ih =>
    refine ih fun p => ?_
    rw [appendRow_cell]
    split
    · exact ⟨rfl, rfl⟩
    · exact h p

theorem setPosition_bare1 {t t' : Table} {x y} (h : ∀ p, Bare1 (t.cell p)) (he : setPosition x y t = .ok t') (p) :
    Bare1 (t'.cell p) := by
  rw [setPosition] at he
  split at he
  · cases he
  · simp only [Res.ok.injEq] at he
    subst he
    exact appendRows_bare1 _ h p

theorem onCurrent_bare1 {t t' : Table} {f : Cell → Cell} (hf : ∀ c, Bare1 c → Bare1 (f c)) (h : ∀ p, Bare1 (t.cell p))
    (he : onCurrent f t = .ok t') (p) : Bare1 (t'.cell p) := by
  rw [onCurrent] at he
  split at he
  · cases he
  · simp only [Res.ok.injEq] at he
    subst he
    by_cases e : p = (t.curRow, t.curCol)
    · subst e; rw [setCell_eq]; exact hf _ (h _)
    · rw [setCell_ne _ _ e]; exact h p

theorem call_bare1 {c : Call} (hc : Lineless c) {t t' : Table} (h : ∀ p, Bare1 (t.cell p)) (he : call c t = .ok t') (p) :
    Bare1 (t'.cell p) := by
  cases c with
  | setPosition x y => exact setPosition_bare1 h he p
  | nextRow =>
    simp only [call, Res.ok.injEq] at he
    subst he
    rw [nextRow]
    split
    · exact h p
    · exact appendRows_bare1 1 h p
  | add s =>
    obtain ⟨_, w, hw, h1, h2, h3, h4, h5, h6, h7⟩ := addText_ok he
    rw [h7]
    by_cases e : p = (t.curRow, t.curCol)
    · subst e; rw [put_eq]; exact h _
    · rw [put_ne _ _ e]; exact h p
  | setAligns hs vs =>
    simp only [Layout.call, setAligns] at he
    split at he
    · cases he
    · simp only [Res.ok.injEq] at he
      subst he
      exact h p
  | overrideH a => exact onCurrent_bare1 (f := fun c => { c with hAlign := some a }) (fun c hc => hc) h he p
  | overrideV a => exact onCurrent_bare1 (f := fun c => { c with vAlign := some a }) (fun c hc => hc) h he p
  | overrideHRow a =>
    cases he
    simp only [onRow]
    split
    · exact h p
    · exact h p
  | overrideVRow a =>
    cases he
    simp only [onRow]
    split
    · exact h p
    · exact h p
  | setHline s => cases he; exact h p
  | setVline i s => rw [setVline_cell he]; exact h p
  | makeBoxed s =>
    obtain ⟨t1, t2, t3, t4, h1, h2, h3, h4, rfl⟩ := makeBoxed_ok he
    have g1 := setPosition_bare1 h h1
    rw [← setVline_cell h2] at g1
    have g2 := setPosition_bare1 (t := setHline s t2) g1 h3
    rw [← setVline_cell h4] at g2
    exact g2 p
  | setAllVlines s => rw [(vlinesLoop_ok _ _ he).2.2.2.2]; exact h p
  | overrideLeft s => exact hc.elim
  | overrideAbove s => exact hc.elim
  | setSpan x y => exact hc.elim

theorem calls_bare1 {cs : List Call} (hc : ∀ c ∈ cs, Lineless c) {t t' : Table} (h : ∀ p, Bare1 (t.cell p))
    (he : calls cs t = .ok t') (p) : Bare1 (t'.cell p) := by
  induction cs generalizing t with
  | nil =>
    simp only [calls, Res.ok.injEq] at he
    exact he ▸ h p
  | cons c cs ih =>
    obtain ⟨t1, h1, he⟩ := Res.bind_eq_ok.1 he
    exact ih (fun c hm => hc c (List.mem_cons_of_mem _ hm)) (call_bare1 (hc c List.mem_cons_self) h h1) he

theorem Lineless.spanless {c : Call} (h : Lineless c) : Spanless c := by
  cases c <;> first | trivial | exact h.elim

theorem range_ends {α} (f : Nat → List α) (n : Nat) :
    (List.range (n + 2)).flatMap f = f 0 ++ (List.range n).flatMap (fun k => f (k + 1)) ++ f (n + 1) := by
  rw [List.range_succ, List.flatMap_append, List.range_succ_eq_map, List.flatMap_cons, List.flatMap_map, List.flatMap_singleton]

theorem ends_eq (a b c d : Str) : ∃ x, a ++ b ++ c ++ d = a ++ x ++ d := ⟨b ++ c, by simp only [List.append_assoc]⟩

theorem corner_eq {s : Border} (hs : s ≠ .none) : junctionChar .none s s .none = (corners s).1 ∧
    junctionChar .none .none s s = (corners s).2.1 ∧ junctionChar s s .none .none = (corners s).2.2.1 ∧
    junctionChar s .none .none s = (corners s).2.2.2 ∧ downChar s ∈ leftSide s ∧ downChar s ∈ rightSide s ∧
    (∀ b, junctionChar s b s .none ∈ leftSide s) ∧ ∀ b, junctionChar s .none s b ∈ rightSide s := by
  cases s with
  | none => exact absurd rfl hs
  | single =>
    refine ⟨by decide, by decide, by decide, by decide, by decide, by decide, fun b => ?_, fun b => ?_⟩ <;> cases b <;> decide
  | double =>
    refine ⟨by decide, by decide, by decide, by decide, by decide, by decide, fun b => ?_, fun b => ?_⟩ <;> cases b <;> decide

open Classical in
/-- The grid of a table with lines all around. -/
theorem grid_boxed {t : Table} {w h : Nat → Nat} {s : Border} (hs : s ≠ .none) (m n : Nat) (hr : t.numRows = m + 2)
    (hk : t.numCols = n + 2) (bare : ∀ p, Bare1 (t.cell p)) (r0 : t.rowBorder 0 = s) (r1 : t.rowBorder (m + 1) = s)
    (k0 : t.colBorder 0 = s) (k1 : t.colBorder (n + 1) = s) (hw : w (n + 1) = 0) (hh : h (m + 1) = 0)
    (ht : ∀ r, r < m + 2 → (t.cell (r, n + 1)).text = none) : Boxed s (grid t w h) := by
  obtain ⟨c1, c2, c3, c4, c5, c6, c7, c8⟩ := corner_eq hs
  have la : ∀ r k, lineAbove t w r k = if k = n + 1 then .none else t.rowBorder r := by
    intro r k
    rw [lineAbove, ownAbove, hk, show n + 2 - 1 = n + 1 from rfl, hw, (bare (r, k)).2]
    simp only [true_and]
    split <;> rfl
  have ll : ∀ r k, lineLeft t h r k = if r = m + 1 then .none else t.colBorder k := by
    intro r k
    rw [lineLeft, ownLeft, hr, show m + 2 - 1 = m + 1 from rfl, hh, (bare (r, k)).1]
    simp only [true_and]
    split <;> rfl
  have L0 : LineLeft t h 0 := .inl (by rw [k0]; exact hs)
  have L1 : LineLeft t h (n + 1) := .inl (by rw [k1]; exact hs)
  have A0 : LineAbove t w 0 := .inl (by rw [r0]; exact hs)
  have A1 : LineAbove t w (m + 1) := .inl (by rw [r1]; exact hs)
  have border : ∀ r, ∃ x, borderRow t w h r =
      bytes (junctionChar (if r = 0 then .none else lineLeft t h (r - 1) 0) (lineAbove t w r 0) (lineLeft t h r 0) .none) ++ x ++
      bytes (junctionChar (if r = 0 then .none else lineLeft t h (r - 1) (n + 1)) .none (lineLeft t h r (n + 1))
        (lineAbove t w r n)) := by
    intro r
    rw [borderRow, hk, range_ends]
    simp only [if_pos L0, if_pos L1, if_true, hw, List.replicate_zero, List.flatten_nil, List.append_nil, Nat.add_sub_cancel,
      if_neg (Nat.succ_ne_zero n)]
    rw [show lineAbove t w r (n + 1) = .none by rw [la, if_pos rfl]]
    exact ends_eq ..
  have text : ∀ r i, r < m + 2 → ∃ x, textRow t w h r i = bytes (downChar (lineLeft t h r 0)) ++ x ++ bytes (downChar (lineLeft t h r (n + 1))) := by
    intro r i hr
    rw [textRow, hk, range_ends]
    have e : visible ((t.cell (r, n + 1)).vAlign.getD (t.vAligns (n + 1))) (h r) (cellLines (t.cell (r, n + 1)).text) i = [] := by
      rw [ht r hr]
      unfold visible
      simp [cellLines]
    simp only [if_pos L0, if_pos L1, e, hw, pad_nil, spaces, List.replicate_zero, List.append_nil]
    exact ends_eq ..
  have side : ∀ r k, r ≠ m + 1 → t.colBorder k = s → lineLeft t h r k = s := fun r k h1 h2 => by rw [ll, if_neg h1, h2]
  have mid : ∀ r, r < m + 1 → ∀ i, Framed (leftSide s) (rightSide s) (textRow t w h r i) := by
    intro r hr i
    obtain ⟨x, e⟩ := text r i (by omega)
    rw [side r 0 (by omega) k0, side r (n + 1) (by omega) k1] at e
    exact ⟨_, c5, _, c6, x, e⟩
  refine ⟨borderRow t w h 0, (List.range (h 0)).map (textRow t w h 0) ++
    (List.range m).flatMap (fun r => (if LineAbove t w (r + 1) then [borderRow t w h (r + 1)] else []) ++
      (List.range (h (r + 1))).map (textRow t w h (r + 1))), borderRow t w h (m + 1), ?_, ?_, fun l hl => ?_, ?_⟩
  · rw [grid, hr, range_ends]
    simp only [if_pos A0, if_pos A1, hh, List.range_zero, List.map_nil, List.append_nil, List.cons_append, List.nil_append]
  · obtain ⟨x, e⟩ := border 0
    rw [if_pos rfl, if_pos rfl, side 0 0 (by omega) k0, side 0 (n + 1) (by omega) k1, la, la, if_neg (by omega),
      if_neg (by omega), r0, c1, c2] at e
    exact ⟨_, List.mem_singleton.2 rfl, _, List.mem_singleton.2 rfl, x, e⟩
  · rcases List.mem_append.1 hl with hl | hl
    · obtain ⟨i, _, rfl⟩ := List.mem_map.1 hl
      exact mid 0 (by omega) i
    · obtain ⟨r, hr, hl⟩ := List.mem_flatMap.1 hl
      have hr := List.mem_range.1 hr
      rcases List.mem_append.1 hl with hl | hl
      · split at hl
        · rw [List.mem_singleton.1 hl]
          obtain ⟨x, e⟩ := border (r + 1)
          rw [if_neg (by omega), if_neg (by omega), Nat.add_sub_cancel, side r 0 (by omega) k0, side r (n + 1) (by omega) k1,
            side (r + 1) 0 (by omega) k0, side (r + 1) (n + 1) (by omega) k1] at e
          exact ⟨_, c7 _, _, c8 _, x, e⟩
        · simp at hl
      · obtain ⟨i, _, rfl⟩ := List.mem_map.1 hl
        exact mid (r + 1) (by omega) i
  · obtain ⟨x, e⟩ := border (m + 1)
    rw [if_neg (by omega), if_neg (by omega), Nat.add_sub_cancel, side m 0 (by omega) k0, side m (n + 1) (by omega) k1,
      ll, ll, if_pos rfl, if_pos rfl, la, la, if_neg (by omega), if_neg (by omega), r1, c3, c4] at e
    exact ⟨_, List.mem_singleton.2 rfl, _, List.mem_singleton.2 rfl, x, e⟩

end Verif.LayoutSpec
