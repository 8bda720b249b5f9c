import Verif.Lemmas.LayoutGeo
import Mathlib.Algebra.BigOperators.Intervals

/-!
# Lemmas: widths of printed lines
-/

namespace Verif.LayoutSpec
open Layout TextSpec

/-! ### Room -/

theorem room_Ico (w c : Nat → Nat) (x n : Nat) (hn : 0 < n) :
    bit c x + room w c x n = ∑ i ∈ Finset.Ico x (x + n), (bit c i + w i) := by
  obtain ⟨m, rfl⟩ : ∃ m, n = m + 1 := ⟨n - 1, by omega⟩
  rw [Finset.sum_Ico_eq_sum_range, room, Nat.add_sub_cancel_left, Nat.add_sub_cancel, Finset.sum_add_distrib,
    Finset.sum_range_succ' (fun i => bit c (x + i))]
  have : ∑ i ∈ Finset.range m, bit c (x + 1 + i) = ∑ i ∈ Finset.range m, bit c (x + (i + 1)) :=
    Finset.sum_congr rfl fun i _ => by rw [Nat.add_assoc, Nat.add_comm 1 i]
  rw [this]
  simp only [Nat.add_zero]
  omega

/-- Lines to the left of the second column and to the right of the last column of a span are both there or both
not, and there is a column behind the span. -/
def Agree (t : Table) (p : Nat × Nat) : Prop :=
  1 < (t.cell p).spanX → p.2 + (t.cell p).spanX < maxCols ∧
    (0 < t.colCounter (p.2 + 1) ↔ 0 < t.colCounter (p.2 + (t.cell p).spanX))

theorem totalWidthLoop_ok (t : Table) (w : Nat → Nat) (x n i s : Nat) (h1 : n ≠ 0 → x + i + n ≤ t.numCols)
    (h2 : n ≠ 0 → i + n ≠ 1 → x + i + n < maxCols) :
    totalWidthLoop t w x n i s = .ok (s + ∑ j ∈ Finset.range n, w (x + i + j) +
      ∑ j ∈ Finset.range n, if i + j ≠ 0 then bit t.colCounter (x + i + j + 1) else 0) := by
  induction n generalizing i s with
  | zero => simp [totalWidthLoop]
  | succ n ih =>
    rw [totalWidthLoop, if_neg (by have := h1 (by omega); have := h2 (by omega); omega),
      ih (i + 1) _ (fun _ => by have := h1 (by omega); omega) (fun _ _ => by have := h2 (by omega); omega),
      Finset.sum_range_succ' (fun j => w (x + i + j)),
      Finset.sum_range_succ' (fun j => if i + j ≠ 0 then bit t.colCounter (x + i + j + 1) else 0)]
    have e1 : ∑ j ∈ Finset.range n, w (x + (i + 1) + j) = ∑ j ∈ Finset.range n, w (x + i + (j + 1)) :=
      Finset.sum_congr rfl fun j _ => by rw [show x + (i + 1) + j = x + i + (j + 1) by omega]
    have e2 : ∑ j ∈ Finset.range n, (if i + 1 + j ≠ 0 then bit t.colCounter (x + (i + 1) + j + 1) else 0) =
        ∑ j ∈ Finset.range n, if i + (j + 1) ≠ 0 then bit t.colCounter (x + i + (j + 1) + 1) else 0 :=
      Finset.sum_congr rfl fun j _ => by rw [show i + 1 + j = i + (j + 1) by omega, show x + (i + 1) + j = x + i + (j + 1) by omega]
    have e3 : (if i ≠ 0 ∧ t.colCounter (x + i + 1) > 0 then 1 else 0) =
        if i + 0 ≠ 0 then bit t.colCounter (x + i + 0 + 1) else 0 := by
      simp only [Nat.add_zero, bit]
      by_cases h0 : i = 0
      · rw [if_neg (fun h => h.1 h0), if_neg (fun h => h h0)]
      · rw [if_pos (show i ≠ 0 from h0)]
        exact ite_congr (propext ⟨fun h => h.2, fun h => ⟨h0, h⟩⟩) (fun _ => rfl) (fun _ => rfl)
    rw [e1, e2, e3]
    congr 1
    simp only [Nat.add_zero]
    omega

theorem totalWidth_ok {t : Table} {w : Nat → Nat} {q : Nat × Nat} (h0 : 0 < (t.cell (owner t q)).spanX)
    (hn : (owner t q).2 + (t.cell (owner t q)).spanX ≤ t.numCols) (ha : Agree t (owner t q)) :
    totalWidth t w q = .ok (room w t.colCounter (owner t q).2 (t.cell (owner t q)).spanX) := by
  rw [totalWidth]
  unfold Agree at ha
  generalize (t.cell (owner t q)).spanX = n at *
  generalize (owner t q).2 = x at *
  rw [totalWidthLoop_ok t w x n 0 0 (fun _ => hn) (fun _ h => by have := ha (by omega); omega)]
  congr 1
  simp only [Nat.zero_add, Nat.add_zero, room]
  congr 1
  obtain ⟨m, rfl⟩ : ∃ m, n = m + 1 := ⟨n - 1, by omega⟩
  rw [Finset.sum_range_succ' (fun j => if j ≠ 0 then bit t.colCounter (x + j + 1) else 0)]
  simp only [ne_eq, Nat.add_eq_zero_iff, Nat.one_ne_zero, and_false, not_false_eq_true, if_true, not_true_eq_false, if_false,
    Nat.add_zero, Nat.add_sub_cancel]
  cases m with
  | zero => rfl
  | succ m =>
    rw [Finset.sum_range_succ, Finset.sum_range_succ' (fun j => bit t.colCounter (x + 1 + j))]
    have e : ∑ j ∈ Finset.range m, bit t.colCounter (x + (j + 1) + 1) = ∑ j ∈ Finset.range m, bit t.colCounter (x + 1 + (j + 1)) :=
      Finset.sum_congr rfl fun j _ => by rw [show x + (j + 1) + 1 = x + 1 + (j + 1) by omega]
    rw [e]
    congr 1
    have := (ha (by omega)).2
    simp only [bit]
    exact ite_congr (propext this.symm) (fun _ => rfl) (fun _ => rfl)

theorem totalHeightLoop_ok (t : Table) (h : Nat → Nat) (y n i s : Nat) (h1 : n ≠ 0 → y + i + n ≤ t.numRows) :
    ∃ m, totalHeightLoop t h y n i s = .ok m := by
  induction n generalizing i s with
  | zero => exact ⟨s, rfl⟩
  | succ n ih =>
    rw [totalHeightLoop, if_neg (by have := h1 (by omega); omega)]
    exact ih _ _ fun _ => by have := h1 (by omega); omega

/-! ### Texts -/

theorem printText_piece {t : Table} (ht : Texts t) (q : Nat × Nat) (a : HAlign) (v : VAlign) (line w th : Nat)
    (hw : (t.cell (owner t q)).width ≤ w) : ∃ s, printText t q a v line w th = .ok s ∧ Piece s w := by
  obtain ⟨h1, h2, h3, h4⟩ := ht (owner t q)
  simp only [printText]
  generalize actualLine _ _ _ _ = al
  by_cases hal : al < 0
  · rw [if_pos hal]
    exact ⟨_, rfl, .spaces _⟩
  rw [if_neg hal]
  cases hc : (t.cell (owner t q)).text with
  | none => exact ⟨_, rfl, .spaces _⟩
  | some s =>
    rw [hc] at h1 h3
    obtain ⟨l1, l2⟩ := h1.line al.toNat
    rcases Nat.lt_or_ge al.toNat (s.count '\n' + 1) with hlt | hge
    · obtain ⟨l, e, hl, he, htl, ls, hls, hi⟩ := l1 hlt
      rw [hl]
      simp only [consoleStrlen_tidy htl he, Res.bind_ok, Res.pure_eq, List.take_left]
      refine ⟨_, rfl, alignText_piece _ htl.piece ?_⟩
      obtain ⟨w', hw', hall, _⟩ := textWidth_tidy h1
      rw [hw'] at h3
      cases h3
      exact Nat.le_trans ((hall s rfl).1 ls hls l (List.mem_of_getElem? hi)) hw
    · rw [l2 hge]
      exact ⟨_, rfl, .spaces _⟩

/-! ### Lines -/

/-- What is needed of a table for the widths of lines to come out right. -/
structure Ready (t : Table) (w : Nat → Nat) : Prop where
  inside : Inside t
  geo : Geo t
  texts : Texts t
  agree : ∀ p, p.1 < t.numRows → p.2 < t.numCols → (t.cell p).parent = none → Agree t p
  fits : ∀ p, p.1 < t.numRows → p.2 < t.numCols → (t.cell p).parent = none →
    (t.cell p).width ≤ room w t.colCounter p.2 (t.cell p).spanX

theorem Ready.span {t : Table} {w : Nat → Nat} (h : Ready t w) {r k : Nat} (hr : r < t.numRows) (hk : k < t.numCols) :
    (owner t (r, k)).1 < t.numRows ∧ (owner t (r, k)).2 < t.numCols ∧ 0 < (t.cell (owner t (r, k))).spanX ∧
    (owner t (r, k)).2 + (t.cell (owner t (r, k))).spanX ≤ t.numCols ∧
    (owner t (r, k)).1 + (t.cell (owner t (r, k))).spanY ≤ t.numRows := by
  have hc := h.inside.cols
  obtain ⟨o1, o2, o3, o4, o5⟩ := h.geo.own r k hr (by omega)
  obtain ⟨_, w2, w3, _⟩ := h.inside.cell (owner t (r, k)) (by omega) (by omega)
  refine ⟨by omega, by omega, by omega, ?_, w3⟩
  rcases Nat.lt_or_ge 1 (t.cell (owner t (r, k))).spanX with h1 | h1
  · exact w2 h1
  · omega

/-- The cell to the right of a rectangle starts a rectangle, in every row. -/
theorem Ready.next {t : Table} {w : Nat → Nat} (h : Ready t w) {r k : Nat} (hr : r < t.numRows) (hk : k < t.numCols)
    (hn : (owner t (r, k)).2 + (t.cell (owner t (r, k))).spanX < t.numCols) :
    (owner t (r, (owner t (r, k)).2 + (t.cell (owner t (r, k))).spanX)).2 =
      (owner t (r, k)).2 + (t.cell (owner t (r, k))).spanX := by
  have hc := h.inside.cols
  obtain ⟨a1, a2, a3, a4, a5⟩ := h.geo.own r k hr (by omega)
  obtain ⟨s1, s2, s3, s4, s5⟩ := h.span hr hk
  generalize ho : owner t (r, k) = o at *
  generalize hk' : o.2 + (t.cell o).spanX = k' at *
  obtain ⟨b1, b2, b3, b4, b5⟩ := h.geo.own r k' hr (by omega)
  obtain ⟨p1, p2, p3, p4, p5⟩ := h.span hr hn
  generalize ho' : owner t (r, k') = o' at *
  by_contra hne
  have e1 := h.geo.rect o.1 o.2 (by omega) (by omega) a5 (r - o.1) ((t.cell o).spanX - 1)
    (show r - o.1 < (t.cell o).spanY by omega) (show (t.cell o).spanX - 1 < (t.cell o).spanX by omega)
  have e2 := h.geo.rect o'.1 o'.2 (by omega) (by omega) b5 (r - o'.1) (k' - 1 - o'.2)
    (show r - o'.1 < (t.cell o').spanY by omega) (show k' - 1 - o'.2 < (t.cell o').spanX by omega)
  rw [show o.1 + (r - o.1) = r by omega, show o.2 + ((t.cell o).spanX - 1) = k' - 1 by omega] at e1
  rw [show o'.1 + (r - o'.1) = r by omega, show o'.2 + (k' - 1 - o'.2) = k' - 1 by omega, e1] at e2
  have : o = o' := by rw [← Prod.mk.eta (p := o), ← Prod.mk.eta (p := o')]; exact e2
  subst this
  omega

/-- In the row where a rectangle starts, the next cell starts a rectangle or lies in one that starts in this
row. -/
theorem Ready.nextTop {t : Table} {w : Nat → Nat} (h : Ready t w) {r k : Nat} (hr : r < t.numRows) (hk : k + 1 < t.numCols)
    (ht : (owner t (r, k)).1 = r) : (owner t (r, k + 1)).1 = r ∨ (owner t (r, k + 1)).2 = k + 1 := by
  have hc := h.inside.cols
  obtain ⟨b1, b2, b3, b4, b5⟩ := h.geo.own r (k + 1) hr (by omega)
  generalize ho' : owner t (r, k + 1) = o' at *
  by_contra hne
  simp only [not_or] at hne
  have e2 := h.geo.rect o'.1 o'.2 (by omega) (by omega) b5 (r - o'.1) (k - o'.2)
    (show r - o'.1 < (t.cell o').spanY by omega) (show k - o'.2 < (t.cell o').spanX by omega)
  rw [show o'.1 + (r - o'.1) = r by omega, show o'.2 + (k - o'.2) = k by omega] at e2
  rw [e2] at ht
  exact hne.1 ht

theorem cellText_piece {t : Table} {w h : Nat → Nat} (hr : Ready t w) (li : Nat → Nat) (k : Nat) {r c : Nat}
    (hr' : r < t.numRows) (hc : c < t.numCols) {q : Nat × Nat} (hq : owner t q = owner t (r, c)) :
    ∃ s, cellText t w h li k q = .ok s ∧
      Piece s (room w t.colCounter (owner t (r, c)).2 (t.cell (owner t (r, c))).spanX) := by
  have hco := hr.inside.cols
  obtain ⟨s1, s2, s3, s4, s5⟩ := hr.span hr' hc
  have hpar := (hr.geo.own r c hr' (by omega)).2.2.2.2
  rw [cellText, totalWidth_ok (by rw [hq]; exact s3) (by rw [hq]; exact s4) (by rw [hq]; exact hr.agree _ s1 s2 hpar)]
  obtain ⟨m, hm⟩ := totalHeightLoop_ok t h (owner t q).1 (t.cell (owner t q)).spanY 0 0 (by rw [hq]; exact fun _ => s5)
  rw [Res.bind_ok, totalHeight, hm, Res.bind_ok, hq]
  exact printText_piece hr.texts q _ _ _ _ _ (by rw [hq]; exact hr.fits _ s1 s2 hpar)

theorem border_piece {s : Str} (c : Nat → Nat) (k : Nat) (h : Piece s 1) : Piece (if c k > 0 then s else []) (bit c k) := by
  unfold bit
  by_cases h0 : 0 < c k
  · rw [if_pos h0, if_pos h0]; exact h
  · rw [if_neg h0, if_neg h0]; exact .nil

theorem lineLoop_piece {t : Table} {w h : Nat → Nat} (hr : Ready t w) {r : Nat} (hr' : r < t.numRows) (n k : Nat)
    (li : Nat → Nat) (hk : k ≤ t.numCols) (hn : t.numCols ≤ k + n) (hs : k < t.numCols → (owner t (r, k)).2 = k) :
    ∃ s li', lineLoop t w h r n k li = .ok (s, li') ∧
      Piece s (∑ i ∈ Finset.Ico k t.numCols, (bit t.colCounter i + w i)) := by
  induction n generalizing k li with
  | zero =>
    obtain rfl : k = t.numCols := by omega
    refine ⟨[], li, ?_, by simpa using Piece.nil⟩
    rw [lineLoop, if_neg (Nat.lt_irrefl _)]
  | succ n ih =>
    rw [lineLoop]
    by_cases hlt : k < t.numCols
    · rw [if_pos hlt]
      obtain ⟨s1, s2, s3, s4, s5⟩ := hr.span hr' hlt
      obtain ⟨text, ht, hp⟩ := cellText_piece hr (h := h) li k hr' hlt (q := (r, k)) rfl
      have hst := hs hlt
      have hnx := hr.next hr' hlt
      rw [hst] at hp s4 hnx
      obtain ⟨s, li', he, hp'⟩ := ih (k + (t.cell (owner t (r, k))).spanX) (put li k (li k + 1)) s4 (by omega) hnx
      refine ⟨(if t.colCounter k > 0 then vline (borderLeft t (r, k)) else []) ++ text ++ s, li', ?_, ?_⟩
      · simp only [ht, Out.of, Out.bind_ok, he, Out.pure_eq]
      · have := ((border_piece t.colCounter k (vline_piece (borderLeft t (r, k)))).append hp).append hp'
        rw [room_Ico _ _ _ _ s3, Finset.sum_Ico_consecutive _ (by omega) s4] at this
        exact this
    · obtain rfl : k = t.numCols := by omega
      rw [if_neg hlt]
      exact ⟨[], li, rfl, by simpa using Piece.nil⟩

theorem rowBorderLoop_piece {t : Table} {w h : Nat → Nat} (hr : Ready t w) {r : Nat} (hr' : r < t.numRows) (n k : Nat)
    (li : Nat → Nat) (hk : k ≤ t.numCols) (hn : t.numCols ≤ k + n)
    (hs : k < t.numCols → (owner t (r, k)).1 = r ∨ (owner t (r, k)).2 = k) :
    ∃ s li', rowBorderLoop t w h r n k li = .ok (s, li') ∧
      Piece s (∑ i ∈ Finset.Ico k t.numCols, (bit t.colCounter i + w i)) := by
  induction n generalizing k li with
  | zero =>
    obtain rfl : k = t.numCols := by omega
    refine ⟨[], li, ?_, by simpa using Piece.nil⟩
    rw [rowBorderLoop, if_neg (Nat.lt_irrefl _)]
  | succ n ih =>
    rw [rowBorderLoop]
    by_cases hlt : k < t.numCols
    · rw [if_pos hlt]
      -- the step over one column
      have step : (owner t (r, k)).1 = r → ∃ s li', (do
          let (s, li') ← rowBorderLoop t w h r n (k + 1) li
          pure ((if t.colCounter k > 0 then intersection t r k else []) ++ hline (borderAbove t (r, k)) (w k) ++ s, li')
            : Out (Str × (Nat → Nat))) = .ok (s, li') ∧
          Piece s (∑ i ∈ Finset.Ico k t.numCols, (bit t.colCounter i + w i)) := by
        intro htop
        obtain ⟨s, li', he, hp'⟩ := ih (k + 1) li (by omega) (by omega) fun h => hr.nextTop hr' h htop
        refine ⟨(if t.colCounter k > 0 then intersection t r k else []) ++ hline (borderAbove t (r, k)) (w k) ++ s, li', ?_, ?_⟩
        · simp only [Out.bind_ok, he, Out.pure_eq]
        · have := ((border_piece t.colCounter k (intersection_piece t r k)).append
            (hline_piece (borderAbove t (r, k)) (w k))).append hp'
          rw [Finset.sum_eq_sum_Ico_succ_bot hlt]
          exact this
      cases hpar : (t.cell (r, k)).parent with
      | none =>
        have htop : (owner t (r, k)).1 = r := by simp only [owner, hpar, Option.getD_none]
        exact step htop
      | some q =>
        have ho : owner t (r, k) = q := by simp only [owner, hpar, Option.getD_some]
        simp only
        by_cases hq : q.1 = r
        · rw [if_pos hq]
          exact step (ho ▸ hq)
        · rw [if_neg hq]
          obtain ⟨s1, s2, s3, s4, s5⟩ := hr.span hr' hlt
          have hc := hr.inside.cols
          have hqq : owner t q = q := by
            have := (hr.geo.own r k hr' (by omega)).2.2.2.2
            rw [ho] at this
            simp only [owner, this, Option.getD_none]
          obtain ⟨text, ht, hp⟩ := cellText_piece hr (h := h) li k hr' hlt (q := q) (hqq.trans ho.symm)
          have hst := (hs hlt).resolve_left (ho ▸ hq)
          have hnx := hr.next hr' hlt
          rw [hst] at hp s4 hnx
          rw [ho] at hp s4 hnx s3
          obtain ⟨s, li', he, hp'⟩ := ih (k + (t.cell q).spanX) (put li k (li k + 1)) s4 (by omega) fun h => .inr (hnx h)
          refine ⟨(if t.colCounter k > 0 then intersection t r k else []) ++ text ++ s, li', ?_, ?_⟩
          · simp only [ht, Out.of, Out.bind_ok, he, Out.pure_eq]
          · have := ((border_piece t.colCounter k (intersection_piece t r k)).append hp).append hp'
            rw [room_Ico _ _ _ _ s3, Finset.sum_Ico_consecutive _ (by omega) s4] at this
            exact this
    · obtain rfl : k = t.numCols := by omega
      rw [if_neg hlt]
      exact ⟨[], li, rfl, by simpa using Piece.nil⟩

theorem Ready.start {t : Table} {w : Nat → Nat} (h : Ready t w) {r : Nat} (hr : r < t.numRows) (h0 : 0 < t.numCols) :
    (owner t (r, 0)).2 = 0 := by
  have hc := h.inside.cols
  have := (h.geo.own r 0 hr (by omega)).2.2.1
  omega

theorem rowLines_piece {t : Table} {w h : Nat → Nat} (hr : Ready t w) {r : Nat} (hr' : r < t.numRows) (n : Nat) (li : Nat → Nat) :
    ∃ ls li', rowLines t w h r n li = .ok (ls, li') ∧ ls.length = n ∧
      ∀ l ∈ ls, Piece l (lineWidth w t.colCounter t.numCols) := by
  induction n generalizing li with
  | zero => exact ⟨[], li, rfl, rfl, by simp⟩
  | succ n ih =>
    obtain ⟨s, li1, h1, hp⟩ := lineLoop_piece (h := h) hr hr' t.numCols 0 li (Nat.zero_le _) (by omega) (hr.start hr')
    obtain ⟨ls, li2, h2, hl, hps⟩ := ih li1
    refine ⟨s :: ls, li2, ?_, by simp [hl], ?_⟩
    · simp only [rowLines, h1, Out.bind_ok, h2, Out.pure_eq]
    · intro l hm
      rcases List.mem_cons.1 hm with rfl | hm
      · rw [lineWidth, ← Nat.Ico_zero_eq_range]; exact hp
      · exact hps l hm

theorem rowsLoop_piece {t : Table} {w h : Nat → Nat} (hr : Ready t w) (n r : Nat) (li : Nat → Nat) (hn : r + n ≤ t.numRows) :
    ∃ ls, rowsLoop t w h n r li = .ok ls ∧ ls.length = ∑ i ∈ Finset.Ico r (r + n), (bit t.rowCounter i + h i) ∧
      ∀ l ∈ ls, Piece l (lineWidth w t.colCounter t.numCols) := by
  induction n generalizing r li with
  | zero => exact ⟨[], rfl, by simp, by simp⟩
  | succ n ih =>
    have htop : ∃ top li1, ((t.rowCounter r > 0 ∧ ∃ l, rowBorderLoop t w h r t.numCols 0 li = .ok (l, li1) ∧ top = [l]) ∨
        ¬ t.rowCounter r > 0 ∧ top = [] ∧ li1 = li) ∧
        top.length = bit t.rowCounter r ∧ ∀ l ∈ top, Piece l (lineWidth w t.colCounter t.numCols) := by
      by_cases hb : t.rowCounter r > 0
      · obtain ⟨s, li1, h1, hp⟩ := rowBorderLoop_piece (h := h) hr (show r < t.numRows by omega) t.numCols 0 li (Nat.zero_le _)
          (by omega) (fun h0 => .inr (hr.start (by omega) h0))
        refine ⟨[s], li1, .inl ⟨hb, s, h1, rfl⟩, ?_, ?_⟩
        · rw [bit, if_pos hb]; rfl
        · intro l hl
          rw [List.mem_singleton.1 hl, lineWidth, ← Nat.Ico_zero_eq_range]
          exact hp
      · exact ⟨[], li, .inr ⟨hb, rfl, rfl⟩, by rw [bit, if_neg hb]; rfl, by simp⟩
    obtain ⟨top, li1, e1, l1, p1⟩ := htop
    obtain ⟨ls, li2, e2, l2, p2⟩ := rowLines_piece (h := h) hr (show r < t.numRows by omega) (h r) (resetLines t r li1)
    obtain ⟨rest, e3, l3, p3⟩ := ih (r + 1) li2 (by omega)
    refine ⟨top ++ ls ++ rest, ?_, ?_, ?_⟩
    · rw [rowsLoop]
      rcases e1 with ⟨hb, l, e1, rfl⟩ | ⟨hb, rfl, rfl⟩
      · rw [if_pos hb]
        simp only [e1, Out.bind_ok, e2, e3, Out.pure_eq]
      · rw [if_neg hb]
        simp only [Out.bind_ok, e2, e3, Out.pure_eq]
    · rw [List.length_append, List.length_append, l1, l2, l3, Finset.sum_eq_sum_Ico_succ_bot (show r < r + (n + 1) by omega),
        show r + 1 + n = r + (n + 1) by omega]
    · intro l hl
      rcases List.mem_append.1 hl with hl | hl
      · rcases List.mem_append.1 hl with hl | hl
        · exact p1 l hl
        · exact p2 l hl
      · exact p3 l hl

/-! ### Superfluous lines -/

theorem dropAbove_ok (n r : Nat) (t : Table) (hc : t.curCol < maxCols) (hn : n ≠ 0 → r + n ≤ t.numRows) :
    ∃ t', dropAbove n r t = .ok t' ∧ Keeps t t' ∧ t'.numCols = t.numCols ∧ t'.curCol = t.curCol ∧
      (t'.curRow = t.curRow ∨ t'.curRow < t.numRows) ∧ (n ≠ 0 → t'.curRow = r + n - 1) ∧ t'.colCounter = t.colCounter ∧
      (∀ p, (t'.cell p).left = (t.cell p).left) := by
  induction n generalizing r t with
  | zero => exact ⟨t, rfl, .rfl, rfl, rfl, .inl rfl, fun h => absurd rfl h, rfl, fun _ => rfl⟩
  | succ n ih =>
    have hr := hn (by omega)
    obtain ⟨t', e, k, e1, e2, e3, e3', e4, e5⟩ := ih (r + 1)
      { setCell { t with curRow := r } (r, t.curCol) fun c => { c with above := some .none } with
        rowCounter := put t.rowCounter r (recount ((t.cell (r, t.curCol)).above.getD .none) .none (t.rowCounter r)) } hc
      (fun _ => show r + 1 + n ≤ t.numRows by omega)
    have k0 : Keeps t { setCell { t with curRow := r } (r, t.curCol) fun c => { c with above := some .none } with
        rowCounter := put t.rowCounter r (recount ((t.cell (r, t.curCol)).above.getD .none) .none (t.rowCounter r)) } :=
      ⟨rfl, Nat.le_refl _, (setCell_keeps { t with curRow := r } (r, t.curCol) (f := fun c => { c with above := some .none })
        fun c => ⟨rfl, rfl, rfl, rfl, rfl, rfl, rfl⟩).cell⟩
    refine ⟨t', ?_, k0.trans k, e1, e2, ?_, fun _ => ?_, e4, fun p => (e5 p).trans ?_⟩
    · rw [dropAbove, overrideAbove, if_neg (show ¬ maxCols ≤ t.curCol by omega), Res.bind_ok]
      exact e
    · rcases e3 with e3 | e3
      · right
        rw [e3]
        show r < t.numRows
        omega
      · exact .inr e3
    · rcases Nat.eq_zero_or_pos n with rfl | hp
      · simp only [dropAbove, Res.ok.injEq] at e
        rw [← e]
        show r = _
        omega
      · rw [e3' (by omega)]; omega
    · show ((setCell { t with curRow := r } (r, t.curCol) fun c => { c with above := some .none }).cell p).left = _
      by_cases hp : p = (r, t.curCol)
      · subst hp; rw [setCell_eq]
      · rw [setCell_ne _ _ hp]

theorem dropLeft_ok (n k : Nat) (t : Table) (hn : k + n ≤ maxCols) (hc : t.curCol ≤ maxCols)
    (hl : ∀ j, k ≤ j → j < k + n → (t.cell (t.curRow, j)).left.getD .none = .none) :
    ∃ t', dropLeft n k t = .ok t' ∧ Keeps t t' ∧ t'.numCols = t.numCols ∧ t'.curCol ≤ maxCols ∧
      t'.curRow = t.curRow ∧ t'.colCounter = t.colCounter := by
  induction n generalizing k t with
  | zero => exact ⟨t, rfl, .rfl, rfl, hc, rfl, rfl⟩
  | succ n ih =>
    have hcount : put t.colCounter k (recount ((t.cell (t.curRow, k)).left.getD .none) .none (t.colCounter k)) = t.colCounter := by
      rw [hl k (Nat.le_refl _) (by omega)]
      funext j
      by_cases hj : j = k
      · subst hj; rw [put_eq]; rfl
      · rw [put_ne _ _ hj]
    obtain ⟨t', e, kp, e1, e2, e3, e4⟩ := ih (k + 1)
      { setCell { t with curCol := k } (t.curRow, k) fun c => { c with left := some .none } with
        colCounter := put t.colCounter k (recount ((t.cell (t.curRow, k)).left.getD .none) .none (t.colCounter k)) }
      (by omega) (show k ≤ maxCols by omega) (fun j h1 h2 => by
        show ((setCell { t with curCol := k } (t.curRow, k) fun c => { c with left := some .none }).cell (t.curRow, j)).left.getD
          .none = .none
        rw [setCell_ne _ _ (fun h => by simp only [Prod.mk.injEq] at h; omega)]
        exact hl j (by omega) (by omega))
    have k0 : Keeps t { setCell { t with curCol := k } (t.curRow, k) fun c => { c with left := some .none } with
        colCounter := put t.colCounter k (recount ((t.cell (t.curRow, k)).left.getD .none) .none (t.colCounter k)) } :=
      ⟨rfl, Nat.le_refl _, (setCell_keeps { t with curCol := k } (t.curRow, k) (f := fun c => { c with left := some .none })
        fun c => ⟨rfl, rfl, rfl, rfl, rfl, rfl, rfl⟩).cell⟩
    refine ⟨t', ?_, k0.trans kp, e1, e2, e3, e4.trans hcount⟩
    rw [dropLeft, overrideLeft, if_neg (show ¬ maxCols ≤ k by omega), Res.bind_ok]
    exact e

theorem dropLines_ok {t : Table} (hi : Inside t) (h0 : t.numCols ≠ 0) (lw lh : Nat)
    (hl : lh = 0 → ∀ k, k < t.numCols → (t.cell (t.numRows - 1, k)).left.getD .none = .none) :
    ∃ t', dropLines lw lh t = .ok t' ∧ Keeps t t' ∧ t'.numCols = t.numCols ∧ t'.curCol ≤ maxCols ∧ t'.curRow < t'.numRows ∧
      t'.colCounter = t.colCounter := by
  have hr := hi.row
  have hc := hi.cols
  have hcc := hi.col
  have first : ∃ t1, (if lw = 0 then dropAbove t.numRows 0 { t with curCol := t.numCols - 1 }
      else pure { t with curRow := t.numRows - 1 }) = .ok t1 ∧ Keeps t t1 ∧ t1.numCols = t.numCols ∧ t1.curCol ≤ maxCols ∧
      t1.curRow = t.numRows - 1 ∧ t1.colCounter = t.colCounter ∧ (∀ p, (t1.cell p).left = (t.cell p).left) := by
    by_cases hw : lw = 0
    · rw [if_pos hw]
      obtain ⟨t', e, k, e1, e2, _, e3, e4, e5⟩ := dropAbove_ok t.numRows 0 { t with curCol := t.numCols - 1 }
        (show t.numCols - 1 < maxCols by omega) (fun _ => show 0 + t.numRows ≤ t.numRows by omega)
      refine ⟨t', e, (Keeps.cur t t.curRow (t.numCols - 1)).trans k, e1, ?_, ?_, e4, e5⟩
      · rw [e2]; show t.numCols - 1 ≤ maxCols; omega
      · rw [e3 (by omega)]; omega
    · rw [if_neg hw]
      exact ⟨_, rfl, Keeps.cur t (t.numRows - 1) t.curCol, rfl, hcc, rfl, rfl, fun _ => rfl⟩
  obtain ⟨t1, e, k, e1, e2, e3, e4, e5⟩ := first
  have e0 : dropLines lw lh t = if lh = 0 then dropLeft t1.numCols 0 t1 else .ok t1 := by
    rw [dropLines]
    by_cases hw : lw = 0
    · rw [if_pos hw] at e ⊢
      rw [e, Res.bind_ok]
      rfl
    · rw [if_neg hw] at e ⊢
      rw [e, Res.bind_ok]
      rfl
  rw [e0]
  by_cases hh : lh = 0
  · rw [if_pos hh]
    obtain ⟨t', g, gk, g1, g2, g3, g4⟩ := dropLeft_ok t1.numCols 0 t1 (by omega) e2 (fun j _ hj => by
      rw [e3, e5]; exact hl hh j (by omega))
    exact ⟨t', g, k.trans gk, g1.trans e1, g2, by rw [g3, gk.rows, k.rows]; omega, g4.trans e4⟩
  · rw [if_neg hh]
    exact ⟨t1, rfl, k, e1, e2, by rw [k.rows]; omega, e4⟩

/-! ### Dimensions -/

theorem dimensions_ok {t : Table} (hi : Inside t) : ∃ w h, dimensions t = .ok (w, h) ∧
    ∀ p, p.1 < t.numRows → p.2 < t.numCols → (t.cell p).isSet = true → (t.cell p).parent = none →
      ((t.cell p).spanX ≠ 0 → (t.cell p).width ≤ room w t.colCounter p.2 (t.cell p).spanX) ∧
      ((t.cell p).spanY ≠ 0 → (t.cell p).height ≤ room h t.rowCounter p.1 (t.cell p).spanY) := by
  have hc := hi.cols
  have hx : ∀ p ∈ heads t, p.2 + (t.cell p).spanX ≤ t.numCols := fun p hp => by
    obtain ⟨⟨h1, h2⟩, _, _⟩ := mem_heads.1 hp
    obtain ⟨_, w2, _, _⟩ := hi.cell p h1 (by omega)
    rcases Nat.lt_or_ge 1 (t.cell p).spanX with h | h
    · exact w2 h
    · omega
  obtain ⟨w, hw, hw'⟩ := satisfy_spec (n := t.numCols) (cs := (heads t).map (widthConstraint t)) (fun c hc => by
    obtain ⟨p, hp, rfl⟩ := List.mem_map.1 hc
    exact hx p hp)
  obtain ⟨h, hh, hh'⟩ := satisfy_spec (n := t.numRows) (cs := (heads t).map (heightConstraint t)) (fun c hc => by
    obtain ⟨p, hp, rfl⟩ := List.mem_map.1 hc
    obtain ⟨⟨h1, h2⟩, _, _⟩ := mem_heads.1 hp
    exact (hi.cell p h1 (by omega)).2.2.1)
  refine ⟨w, h, by rw [dimensions, hw, Res.bind_ok, hh]; rfl, fun p h1 h2 hs hp => ?_⟩
  have hm := mem_heads.2 ⟨⟨h1, h2⟩, hs, hp⟩
  constructor
  · intro h0
    have := hw' _ (List.mem_map_of_mem hm) (show p.2 < p.2 + (t.cell p).spanX by omega)
    simp only [widthConstraint, Nat.add_sub_cancel_left] at this
    have h3 := weaken_spec (fun j => decide (t.colCounter j > 0)) ((t.cell p).spanX - 1) (p.2 + 1) (t.cell p).width
    have e : ∑ i ∈ Finset.range ((t.cell p).spanX - 1), (if decide (t.colCounter (p.2 + 1 + i) > 0) = true then 1 else 0) =
        ∑ i ∈ Finset.range ((t.cell p).spanX - 1), bit t.colCounter (p.2 + 1 + i) :=
      Finset.sum_congr rfl fun i _ => by simp only [bit, decide_eq_true_eq, gt_iff_lt]
    rw [room]
    rw [e] at h3
    omega
  · intro h0
    have := hh' _ (List.mem_map_of_mem hm) (show p.1 < p.1 + (t.cell p).spanY by omega)
    simp only [heightConstraint, Nat.add_sub_cancel_left] at this
    have h3 := weaken_spec (fun j => decide (j < t.numRows) && decide (t.rowCounter j > 0)) ((t.cell p).spanY - 1) (p.1 + 1) (t.cell p).height
    have e : ∑ i ∈ Finset.range ((t.cell p).spanY - 1),
        (if (decide (p.1 + 1 + i < t.numRows) && decide (t.rowCounter (p.1 + 1 + i) > 0)) = true then 1 else 0) ≤
        ∑ i ∈ Finset.range ((t.cell p).spanY - 1), bit t.rowCounter (p.1 + 1 + i) :=
      Finset.sum_le_sum fun i _ => by
        simp only [bit, Bool.and_eq_true, decide_eq_true_eq, gt_iff_lt]
        split
        · rename_i h; rw [if_pos h.2]
        · exact Nat.zero_le _
    rw [room]
    omega

theorem Agree.keeps {t t' : Table} (hk : Keeps t t') (hcc : t'.colCounter = t.colCounter) {p} (h : Agree t p) : Agree t' p := by
  unfold Agree at *
  rw [(hk.cell p).spanX, hcc]
  exact h

/-- Tables are printed with lines of the same width. -/
theorem print_ok {t : Table} (h : Made t) (h0 : t.numCols ≠ 0)
    (ha : ∀ p, p.1 < t.numRows → p.2 < t.numCols → (t.cell p).parent = none → Agree t p)
    (hl : ∀ k, k < t.numCols → (t.cell (t.numRows - 1, k)).left.getD .none = .none) :
    ∃ w h ls t', dimensions t = .ok (w, h) ∧ print t = .ok (ls, t') ∧
      ls.length = ∑ i ∈ Finset.range t.numRows, (bit t'.rowCounter i + h i) ∧
      ∀ l ∈ ls, Piece l (lineWidth w t.colCounter t.numCols) := by
  obtain ⟨hi, hg, ht⟩ := h.all
  obtain ⟨w, hh, hd, hfit⟩ := dimensions_ok hi
  obtain ⟨t', e, k, e1, e2, e3, e4⟩ := dropLines_ok hi h0 (w (t.numCols - 1)) (hh (t.numRows - 1)) (fun _ => hl)
  have hc := hi.cols
  have ready : Ready t' w := by
    refine ⟨hi.keeps k e3 e2 (by omega), hg.keeps k, ht.keeps k, fun p h1 h2 hp => ?_, fun p h1 h2 hp => ?_⟩
    · exact (ha p (k.rows ▸ h1) (e1 ▸ h2) ((k.cell p).parent ▸ hp)).keeps k e4
    · rw [k.rows] at h1
      rw [e1] at h2
      rw [(k.cell p).parent] at hp
      rw [(k.cell p).width, (k.cell p).spanX, e4]
      cases hs : (t.cell p).isSet with
      | true =>
        refine (hfit p h1 h2 hs hp).1 ?_
        have := (hg.own p.1 p.2 h1 (by omega)).2.2.2.1
        have ho : owner t (p.1, p.2) = p := by
          show (t.cell p).parent.getD p = p
          rw [hp]; rfl
        rw [ho] at this
        omega
      | false =>
        obtain ⟨_, _, x3, x4⟩ := ht p
        rw [x4 hs] at x3
        have : (t.cell p).width = 0 := by
          have e : textWidth none = .ok 0 := rfl
          rw [e] at x3
          exact (Res.ok.inj x3).symm
        omega
  obtain ⟨ls, l1, l2, l3⟩ := rowsLoop_piece (h := hh) ready t'.numRows 0 (fun _ => 0) (by omega)
  refine ⟨w, hh, ls, t', hd, ?_, ?_, ?_⟩
  · simp only [print, if_neg h0, hd, Out.of, Out.bind_ok, e, l1, Out.pure_eq]
  · rw [l2, Nat.zero_add, Nat.Ico_zero_eq_range, k.rows]
  · rw [e4, e1] at l3
    exact l3

end Verif.LayoutSpec
