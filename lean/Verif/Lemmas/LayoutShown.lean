import Verif.Lemmas.LayoutPlain
import Verif.Spec.LayoutRows

/-!
# Lemmas: exact output of tables without lines and spans
-/

namespace Verif.LayoutSpec
open Layout TextSpec

/-! ### Lists -/

theorem linesOf_lines (s : Str) : Lines s (linesOf s) := by
  induction s with
  | nil => exact .last (by simp)
  | cons c s ih =>
    rw [linesOf]
    split
    · rename_i h
      subst h
      exact .more (a := []) (by simp) ih
    · rename_i h
      have hc : '\n' ≠ c := Ne.symm h
      generalize hl : linesOf s = ls at ih
      cases ih with
      | last hn => exact .last (by simp [hc, hn])
      | @more a b ls ha hb => exact .more (a := c :: a) (by simp [hc, ha]) hb

theorem linesOf_length (s : Str) : (linesOf s).length = s.count '\n' + 1 := by
  obtain ⟨ls, h1, h2⟩ := Lines.exists s
  rw [Lines.unique (linesOf_lines s) h1, h2]

theorem cellLines_length (c : Option Str) : (cellLines c).length = textHeight c := by
  cases c with
  | none => rfl
  | some s => exact linesOf_length s

theorem le_largest {ns : List Nat} {n : Nat} (h : n ∈ ns) : n ≤ largest ns := by
  induction ns with
  | nil => simp at h
  | cons m ns ih =>
    rw [largest, List.foldr_cons]
    rcases List.mem_cons.1 h with rfl | h
    · omega
    · have := ih h
      rw [largest] at this
      omega

theorem largest_mem {ns : List Nat} (h : ns ≠ []) : largest ns ∈ ns := by
  induction ns with
  | nil => exact absurd rfl h
  | cons a ns ih =>
    show max a (largest ns) ∈ _
    by_cases hn : ns = []
    · subst hn
      simp [largest]
    · rcases Nat.le_total a (largest ns) with hl | hl
      · rw [Nat.max_eq_right hl]; exact List.mem_cons_of_mem _ (ih hn)
      · rw [Nat.max_eq_left hl]; exact List.mem_cons_self

theorem largest_le {ns : List Nat} {m : Nat} (h : ∀ n ∈ ns, n ≤ m) : largest ns ≤ m := by
  induction ns with
  | nil => exact Nat.zero_le _
  | cons k ns ih =>
    rw [largest, List.foldr_cons]
    have h1 := h k List.mem_cons_self
    have h2 := ih fun n hn => h n (List.mem_cons_of_mem _ hn)
    rw [largest] at h2
    omega

theorem textWidth_largest {c : Option Str} (h : Tidy c) : textWidth c = .ok (largest ((cellLines c).map columns)) := by
  obtain ⟨w, hw, h1, h2⟩ := textWidth_tidy h
  rw [hw]
  congr 1
  cases c with
  | none => exact h2 rfl
  | some s =>
    obtain ⟨a, ls, l, hls, hl, he⟩ := h1 s rfl
    refine Nat.le_antisymm ?_ (largest_le fun n hn => ?_)
    · rw [he]
      refine le_largest (List.mem_map_of_mem ?_)
      rw [cellLines, Lines.unique (linesOf_lines s) hls]
      exact hl
    · obtain ⟨l, hl, rfl⟩ := List.mem_map.1 hn
      exact a _ (linesOf_lines s) l hl

/-! ### Padding -/

theorem alignText_fill (a : HAlign) {w n : Nat} (s : Str) (hw : n ≤ w) : alignText a w n s = fill a (w - n) s := by
  cases a with
  | left =>
    simp only [alignText, padRight, fill, spaces]
    rw [show ((w : Int) + s.length - n).natAbs - s.length = w - n by omega]
  | right =>
    simp only [alignText, padLeft, fill, spaces]
    rw [if_neg (by omega), show ((w : Int) + s.length - n).natAbs - s.length = w - n by omega]
  | center =>
    simp only [alignText, fill]
    obtain ⟨d, hd⟩ := Nat.exists_eq_add_of_le hw
    have e : (w : Int) - n = d := by omega
    rw [e, show w - n = d by omega]
    have e2 : (d : Int).tdiv 2 = ((d / 2 : Nat) : Int) := by
      rw [Int.tdiv_eq_ediv_of_nonneg (by omega)]; omega
    have e3 : (d : Int).tmod 2 = ((d % 2 : Nat) : Int) := by
      rw [Int.tmod_eq_emod_of_nonneg (by omega)]; omega
    have pl : ∀ k : Nat, padLeft (k : Int) [] = List.replicate k ' ' := fun k => by
      rw [padLeft, if_neg (by omega)]; simp [spaces]
    rw [e2, e3, pl]
    split
    · rename_i h0
      rw [pl, show d - d / 2 = d / 2 by omega]
    · rename_i h0
      rw [show ((d / 2 : Nat) : Int) + 1 = ((d / 2 + 1 : Nat) : Int) by omega, pl, show d - d / 2 = d / 2 + 1 by omega]

theorem alignText_pad (a : HAlign) {w : Nat} {s : Str} (hw : columns s ≤ w) : alignText a w (columns s) s = pad a w s :=
  alignText_fill a s hw

theorem fill_nil (a : HAlign) (w : Nat) : fill a w [] = spaces w := by
  cases a with
  | left => simp [fill, spaces]
  | right => simp [fill, spaces]
  | center =>
    simp only [fill, List.append_nil, spaces]
    rw [List.replicate_append_replicate, show w / 2 + (w - w / 2) = w by omega]

theorem pad_nil (a : HAlign) (w : Nat) : pad a w [] = spaces w := fill_nil a w

/-! ### Texts whose lines are measured in some way -/

/-- Texts whose lines `console_strlen` measures as given. -/
def Reads (μ : Str → Nat) : Option Str → Prop
  | none => True
  | some s => s.head? ≠ some '\n' ∧ ∀ ls, Lines s ls → ∀ l ∈ ls, ∀ e, LineEnd e → consoleStrlen (l ++ e) = .ok (μ l)

theorem Tidy.reads {s : Option Str} (h : Tidy s) : Reads columns s := by
  cases s with
  | none => trivial
  | some s => exact ⟨h.1, fun ls hls l hl e he => consoleStrlen_tidy (h.2 ls hls l hl) he⟩

theorem Reads.line {μ} {s : Str} (h : Reads μ (some s)) (i : Nat) :
    (i < s.count '\n' + 1 → ∃ l e, getLineOfString (some s) i = .line (l ++ e) l.length ∧ consoleStrlen (l ++ e) = .ok (μ l) ∧
      (linesOf s)[i]? = some l) ∧
    (s.count '\n' + 1 ≤ i → getLineOfString (some s) i = .unset) := by
  have hls := linesOf_lines s
  obtain ⟨h1, h2⟩ := StringProps.C46_line_partial s _ hls h.1 i
  constructor
  · intro hi
    obtain ⟨l, hl⟩ : ∃ l, (linesOf s)[i]? = some l := ⟨_, List.getElem?_eq_getElem (by rw [linesOf_length]; exact hi)⟩
    obtain ⟨r, hr, ht⟩ := h1 l hl
    obtain ⟨l', e, rfl, hlen', _, he⟩ := getLine_split hr
    have : l' = l := by rw [← ht, List.take_append_of_le_length (by omega), ← hlen', List.take_length]
    subst this
    exact ⟨l', e, hlen' ▸ hr, h.2 _ hls _ (List.mem_of_getElem? hl) e he, hl⟩
  · intro hi
    exact h2 (List.getElem?_eq_none (by rw [linesOf_length]; exact hi))

theorem Reads.widthLoop {μ} {s : Str} (h : Reads μ (some s)) (n i res : Nat) (hn : i + n = s.count '\n' + 1) :
    textWidthLoop (some s) n i res = .ok (max (largest (((linesOf s).drop i).map μ)) res) := by
  induction n generalizing i res with
  | zero => rw [List.drop_eq_nil_of_le (by rw [linesOf_length]; omega)]; simp [textWidthLoop, largest]
  | succ n ih =>
    obtain ⟨l, e, hl, he, hi⟩ := (h.line i).1 (by omega)
    obtain ⟨hi1, hi2⟩ := List.getElem?_eq_some_iff.1 hi
    simp only [textWidthLoop, hl, he, Res.bind_ok]
    rw [ih (i + 1) _ (by omega), List.drop_eq_getElem_cons hi1, hi2, List.map_cons]
    congr 1
    simp only [largest, List.foldr_cons]
    omega

theorem Reads.width {μ} {c : Option Str} (h : Reads μ c) : textWidth c = .ok (largest ((cellLines c).map μ)) := by
  cases c with
  | none => rfl
  | some s =>
    rw [textWidth, textHeight, h.widthLoop _ _ _ (by omega), List.drop_zero, cellLines, Nat.max_zero]

theorem Reads.sized {μ} {c : Option Str} (h : Reads μ c) : Sized c := ⟨_, h.width⟩

/-- What the cells of a table know about their texts. -/
def Written (μ : Str → Nat) (t : Table) : Prop :=
  ∀ r k, r < t.numRows → Reads μ (t.cell (r, k)).text ∧ (t.cell (r, k)).height = textHeight (t.cell (r, k)).text ∧
    textWidth (t.cell (r, k)).text = .ok (t.cell (r, k)).width ∧ ((t.cell (r, k)).isSet = false → (t.cell (r, k)).text = none)

theorem Written.keeps {μ} {t t' : Table} (h : Written μ t) (kp : Keeps t t') : Written μ t' := by
  intro r k hr
  rw [(kp.cell _).text, (kp.cell _).height, (kp.cell _).width, (kp.cell _).isSet]
  exact h r k (kp.rows ▸ hr)

/-! ### Printing without lines -/

/-- Tables without lines and spans, all texts at the top. -/
structure Bare (μ : Str → Nat) (t : Table) (w : Nat → Nat) : Prop where
  zero : μ [] = 0
  cells : ∀ p, (t.cell p).spanX = 1 ∧ (t.cell p).spanY = 1 ∧ (t.cell p).parent = none
  aligns : ∀ r k, r < t.numRows → (t.cell (r, k)).vAlign = none
  texts : Written μ t
  cols : ∀ k, t.colCounter k = 0
  rows : ∀ r, t.rowCounter r = 0
  top : ∀ k, t.vAligns k = .top
  fits : ∀ r k, r < t.numRows → k < t.numCols → (t.cell (r, k)).width ≤ w k

theorem Bare.owner {μ t w} (h : Bare μ t w) (p : Nat × Nat) : owner t p = p := by
  rw [Layout.owner, (h.cells p).2.2]; rfl

theorem toInt_small {n : Nat} (h : n < 2 ^ 31) : toInt n = n := by
  have h : n < 2147483648 := h
  show Int.bmod (n : Int) 4294967296 = n
  exact Int.bmod_eq_of_le (by omega) (by omega)

theorem Bare.text {μ t w} {h : Nat → Nat} (hb : Bare μ t w) (li : Nat → Nat) {r k : Nat} (hr : r < t.numRows) (hk : k < t.numCols)
    (hl : li k < 2 ^ 31) :
    cellText t w h li k (r, k) =
      .ok (fill ((t.cell (r, k)).hAlign.getD (t.hAligns k)) (w k - μ ((cellLines (t.cell (r, k)).text)[li k]?.getD []))
        ((cellLines (t.cell (r, k)).text)[li k]?.getD [])) := by
  have hw : totalWidth t w (r, k) = .ok (w k) := by
    rw [totalWidth, hb.owner, (hb.cells _).1, totalWidthLoop, if_neg (by simp only; omega), totalWidthLoop]
    simp
  have hh : totalHeight t h (r, k) = .ok (h r) := by
    rw [totalHeight, hb.owner, (hb.cells _).2.1, totalHeightLoop, if_neg (by simp only; omega), totalHeightLoop]
    simp
  rw [cellText, hw, Res.bind_ok, hh, Res.bind_ok]
  simp only [printText, hb.owner]
  rw [getVAlign, (hb.cells _).2.2]
  simp only
  rw [hb.aligns r k hr, Option.getD_none, hb.top, actualLine]
  rw [toInt_small hl, if_neg (by omega), Int.toNat_natCast]
  obtain ⟨h1, h2, h3, h4⟩ := hb.texts r k hr
  cases hc : (t.cell (r, k)).text with
  | none =>
    simp only [cellLines, List.getElem?_nil, Option.getD_none, fill_nil, hb.zero]
    rfl
  | some s =>
    rw [hc] at h1 h2 h3
    obtain ⟨l1, l2⟩ := h1.line (li k)
    rcases Nat.lt_or_ge (li k) (s.count '\n' + 1) with hlt | hge
    · obtain ⟨l, e, hl, he, hi⟩ := l1 hlt
      rw [hl]
      simp only [he, Res.bind_ok, Res.pure_eq, List.take_left]
      rw [getHAlign, (hb.cells _).2.2]
      simp only
      rw [cellLines, hi, Option.getD_some, alignText_fill]
      rw [h1.width] at h3
      have h3 := Res.ok.inj h3
      have := hb.fits r k hr hk
      rw [← h3] at this
      exact Nat.le_trans (le_largest (List.mem_map_of_mem (List.mem_of_getElem? hi))) this
    · rw [l2 hge]
      simp only
      rw [cellLines, List.getElem?_eq_none (by rw [linesOf_length]; exact hge), Option.getD_none, fill_nil, hb.zero, Nat.sub_zero]

/-- One line of a row. -/
def bareLine (μ : Str → Nat) (t : Table) (w : Nat → Nat) (r i k n : Nat) : Str :=
  (List.range' k n).flatMap fun k =>
    let l := (cellLines (t.cell (r, k)).text)[i]?.getD []
    fill ((t.cell (r, k)).hAlign.getD (t.hAligns k)) (w k - μ l) l

theorem Bare.line {μ t w} {h : Nat → Nat} (hb : Bare μ t w) {r : Nat} (hr : r < t.numRows) (i : Nat) (hi : i < 2 ^ 31) (n k : Nat)
    (li : Nat → Nat) (hk : k + n = t.numCols) (hl : ∀ j, k ≤ j → j < t.numCols → li j = i) :
    ∃ li', lineLoop t w h r n k li = .ok (bareLine μ t w r i k n, li') ∧
      (∀ j, k ≤ j → j < t.numCols → li' j = i + 1) ∧ ∀ j, j < k → li' j = li j := by
  induction n generalizing k li with
  | zero =>
    refine ⟨li, ?_, fun j h1 h2 => by omega, fun _ _ => rfl⟩
    rw [lineLoop, if_neg (by omega)]; rfl
  | succ n ih =>
    have hlt : k < t.numCols := by omega
    have hlk := hl k (Nat.le_refl _) hlt
    obtain ⟨li', e, h1, h2⟩ := ih (k + 1) (put li k (li k + 1)) (by omega) (fun j hj hj' => by
      rw [put_ne _ _ (by omega)]; exact hl j (by omega) hj')
    refine ⟨li', ?_, fun j hj hj' => ?_, fun j hj => ?_⟩
    · rw [lineLoop, if_pos hlt]
      simp only [hb.text (h := h) li hr hlt (by rw [hlk]; exact hi), Out.of, Out.bind_ok, hb.owner, (hb.cells _).1, e, Out.pure_eq,
        hb.cols, gt_iff_lt, Nat.lt_irrefl, if_false, List.nil_append]
      rw [hlk]
      rfl
    · rcases Nat.lt_or_ge k j with hkj | hkj
      · exact h1 j hkj hj'
      · have hjk : j = k := by omega
        subst hjk
        rw [h2 j (by omega), put_eq, hlk]
    · rw [h2 j (by omega), put_ne _ _ (by omega)]

theorem Bare.rowLines {μ t w} {h : Nat → Nat} (hb : Bare μ t w) {r : Nat} (hr : r < t.numRows) (n i : Nat) (hi : i + n ≤ 2 ^ 31)
    (li : Nat → Nat) (hl : ∀ j, j < t.numCols → li j = i) :
    ∃ li', Layout.rowLines t w h r n li = .ok ((List.range' i n).map fun i => bareLine μ t w r i 0 t.numCols, li') := by
  induction n generalizing i li with
  | zero => exact ⟨li, rfl⟩
  | succ n ih =>
    obtain ⟨li1, e1, h1, _⟩ := hb.line (h := h) hr i (by omega) t.numCols 0 li (by omega) (fun j _ hj => hl j hj)
    obtain ⟨li2, e2⟩ := ih (i + 1) (by omega) li1 (fun j hj => h1 j (Nat.zero_le _) hj)
    exact ⟨li2, by simp only [Layout.rowLines, e1, Out.bind_ok, e2, Out.pure_eq]; rfl⟩

theorem Bare.all {μ t w} {h : Nat → Nat} (hb : Bare μ t w) (hh : ∀ r, r < t.numRows → h r ≤ 2 ^ 31) (n r : Nat)
    (hn : r + n = t.numRows) (li : Nat → Nat) :
    rowsLoop t w h n r li = .ok ((List.range' r n).flatMap fun r =>
      (List.range (h r)).map fun i => bareLine μ t w r i 0 t.numCols) := by
  induction n generalizing r li with
  | zero => rfl
  | succ n ih =>
    obtain ⟨li2, e2⟩ := hb.rowLines (h := h) (r := r) (by omega) (h r) 0 (by have := hh r (by omega); omega) (resetLines t r li)
      (fun j hj => by rw [resetLines, (hb.cells _).2.2])
    rw [rowsLoop, if_neg (by rw [hb.rows]; exact Nat.lt_irrefl _)]
    simp only [Out.pure_eq, Out.bind_ok, e2, ih (r + 1) (by omega), List.nil_append]
    rw [List.range'_succ, List.flatMap_cons, List.range_eq_range']

/-! ### Superfluous lines -/

/-- What the removal of lines leaves alone. -/
structure Shows (t t' : Table) : Prop where
  hs : t'.hAligns = t.hAligns
  vs : t'.vAligns = t.vAligns
  rows : (∀ r, t.rowCounter r = 0) → ∀ r, t'.rowCounter r = 0
  cell : ∀ p, (t'.cell p).hAlign = (t.cell p).hAlign ∧ (t'.cell p).vAlign = (t.cell p).vAlign

theorem Shows.trans {a b c : Table} (h : Shows a b) (h' : Shows b c) : Shows a c :=
  ⟨h'.hs.trans h.hs, h'.vs.trans h.vs, fun z => h'.rows (h.rows z),
    fun p => ⟨(h'.cell p).1.trans (h.cell p).1, (h'.cell p).2.trans (h.cell p).2⟩⟩

theorem Shows.cur (t : Table) (a b : Nat) : Shows t { t with curRow := a, curCol := b } :=
  ⟨rfl, rfl, fun h => h, fun _ => ⟨rfl, rfl⟩⟩

theorem overrideAbove_shows {t t' : Table} (h : overrideAbove .none t = .ok t') : Shows t t' := by
  rw [overrideAbove] at h
  split at h
  · cases h
  · simp only [Res.ok.injEq] at h
    subst h
    refine ⟨rfl, rfl, fun z r => ?_, fun p => ?_⟩
    · show put t.rowCounter t.curRow (recount _ .none (t.rowCounter t.curRow)) r = 0
      by_cases e : r = t.curRow
      · subst e
        rw [put_eq, z, recount]
        simp
      · rw [put_ne _ _ e]; exact z r
    · show ((setCell t (t.curRow, t.curCol) fun c => { c with above := some .none }).cell p).hAlign = _ ∧
        ((setCell t (t.curRow, t.curCol) fun c => { c with above := some .none }).cell p).vAlign = _
      by_cases e : p = (t.curRow, t.curCol)
      · subst e; rw [setCell_eq]; exact ⟨rfl, rfl⟩
      · rw [setCell_ne _ _ e]; exact ⟨rfl, rfl⟩

theorem overrideLeft_shows {t t' : Table} (h : overrideLeft .none t = .ok t') : Shows t t' := by
  rw [overrideLeft] at h
  split at h
  · cases h
  · simp only [Res.ok.injEq] at h
    subst h
    refine ⟨rfl, rfl, fun z r => z r, fun p => ?_⟩
    show ((setCell t (t.curRow, t.curCol) fun c => { c with left := some .none }).cell p).hAlign = _ ∧
        ((setCell t (t.curRow, t.curCol) fun c => { c with left := some .none }).cell p).vAlign = _
    by_cases e : p = (t.curRow, t.curCol)
    · subst e; rw [setCell_eq]; exact ⟨rfl, rfl⟩
    · rw [setCell_ne _ _ e]; exact ⟨rfl, rfl⟩

theorem dropAbove_shows (n r : Nat) {t t' : Table} (h : dropAbove n r t = .ok t') : Shows t t' := by
  induction n generalizing r t with
  | zero =>
    simp only [dropAbove, Res.ok.injEq] at h
    subst h
    exact ⟨rfl, rfl, fun h => h, fun _ => ⟨rfl, rfl⟩⟩
  | succ n ih =>
    obtain ⟨t1, h1, h⟩ := Res.bind_eq_ok.1 h
    exact ((Shows.cur t r t.curCol).trans (overrideAbove_shows h1)).trans (ih _ h)

theorem dropLeft_shows (n k : Nat) {t t' : Table} (h : dropLeft n k t = .ok t') : Shows t t' := by
  induction n generalizing k t with
  | zero =>
    simp only [dropLeft, Res.ok.injEq] at h
    subst h
    exact ⟨rfl, rfl, fun h => h, fun _ => ⟨rfl, rfl⟩⟩
  | succ n ih =>
    obtain ⟨t1, h1, h⟩ := Res.bind_eq_ok.1 h
    exact ((Shows.cur t t.curRow k).trans (overrideLeft_shows h1)).trans (ih _ h)

theorem dropLines_shows {lw lh : Nat} {t t' : Table} (h : dropLines lw lh t = .ok t') : Shows t t' := by
  have second : ∀ {t1 : Table}, (if lh = 0 then dropLeft t1.numCols 0 t1 else pure t1) = .ok t' → Shows t1 t' := by
    intro t1 h
    by_cases hh : lh = 0
    · rw [if_pos hh] at h
      exact dropLeft_shows _ _ h
    · rw [if_neg hh] at h
      cases h
      exact ⟨rfl, rfl, fun h => h, fun _ => ⟨rfl, rfl⟩⟩
  rw [dropLines] at h
  by_cases hw : lw = 0
  · rw [if_pos hw] at h
    obtain ⟨t1, h1, h⟩ := Res.bind_eq_ok.1 h
    exact ((Shows.cur t t.curRow (t.numCols - 1)).trans (dropAbove_shows _ _ h1)).trans (second h)
  · rw [if_neg hw] at h
    obtain ⟨t1, h1, h⟩ := Res.bind_eq_ok.1 h
    cases h1
    exact (Shows.cur t (t.numRows - 1) t.curCol).trans (second h)

/-! ### Tables of rows -/

theorem rowHeight_attained (row : List (Option Str)) :
    (∀ k, (linesAt row k).length ≤ rowHeight row) ∧ ∀ m, (∀ k, k < row.length → (linesAt row k).length ≤ m) → rowHeight row ≤ m := by
  constructor
  · intro k
    rw [linesAt]
    cases hk : row[k]? with
    | none => exact Nat.zero_le _
    | some c => exact le_largest (List.mem_map.2 ⟨c, List.mem_of_getElem? hk, rfl⟩)
  · intro m h
    refine largest_le fun n hn => ?_
    obtain ⟨c, hc, rfl⟩ := List.mem_map.1 hn
    obtain ⟨k, hk, e⟩ := List.getElem_of_mem hc
    have := h k hk
    rwa [linesAt, List.getElem?_eq_getElem hk, e] at this

/-- Tables made of rows of texts. -/
structure OfRows (hs : List HAlign) (rows : List (List (Option Str))) (t : Table) : Prop where
  made : Made t
  single : ∀ p, Single (t.cell p)
  nrows : t.numRows = rows.length + 1
  ncols : t.numCols = largest (rows.map List.length)
  haligns : ∀ k, t.hAligns k = hs[k]?.getD .left
  valigns : ∀ k, t.vAligns k = .top
  colCounter : ∀ k, t.colCounter k = 0
  rowCounter : ∀ r, t.rowCounter r = 0
  cell : ∀ i row, rows[i]? = some row → (∀ k s, row[k]? = some s → Holds (t.cell (i, k)) s) ∧
    ∀ k, row.length ≤ k → t.cell (i, k) = {}
  last : ∀ k, t.cell (rows.length, k) = {}

theorem rows_made (hs : List HAlign) (rows : List (List (Option Str))) (h0 : hs.length ≤ maxCols)
    (hrows : ∀ r ∈ rows, r.length ≤ maxCols ∧ ∀ s ∈ r, Tidy s) :
    ∃ t, calls (.setAligns hs [] :: rowCalls rows) empty = .ok t ∧ OfRows hs rows t := by
  have ha : setAligns hs [] empty = .ok { empty with hAligns := fun i => hs[i]?.getD .left, vAligns := fun _ => .top } := by
    rw [setAligns, if_neg (by rintro (h | h); · omega
                              · simp at h)]
    rfl
  obtain ⟨t, e, f, r1, r2, r3, r4, r5, r6, r7, _⟩ := rowCalls_ok rows (fun r hr => ⟨(hrows r hr).1, fun s hs => ((hrows r hr).2 s hs).sized⟩)
    { empty with hAligns := fun i => hs[i]?.getD .left, vAligns := fun _ => .top } ⟨rfl, rfl, fun _ => rfl⟩
  have ec : calls (.setAligns hs [] :: rowCalls rows) empty = .ok t := by
    show (do let t ← setAligns hs [] empty; calls (rowCalls rows) t) = _
    rw [ha]
    exact e
  have hc : ∀ c ∈ Call.setAligns hs [] :: rowCalls rows, Spanless c ∧ TidyCall c := by
    intro c hc
    rcases List.mem_cons.1 hc with rfl | hc
    · exact ⟨trivial, trivial⟩
    · obtain ⟨row, h1, h2⟩ := List.mem_flatMap.1 hc
      rcases List.mem_append.1 h2 with h2 | h2
      · obtain ⟨s, hs, rfl⟩ := List.mem_map.1 h2
        exact ⟨trivial, (hrows row h1).2 s hs⟩
      · rw [List.mem_singleton.1 h2]
        exact ⟨trivial, trivial⟩
  have r1 : t.numRows = 1 + rows.length := r1
  refine ⟨t, ec, ?_⟩
  refine ⟨Made.empty.calls hc ec, calls_single (fun c h => (hc c h).1) empty_single ec, by omega, ?_, fun k => by rw [r3],
    fun k => by rw [r4], fun k => by rw [r5]; rfl, fun r => ?_, fun i row hi => ?_, fun k => ?_⟩
  · rw [r2]; exact Nat.zero_max _
  · rcases r6 r with h | h
    · exact h
    · exact h
  · have := r7 i row hi
    simpa [empty] using this
  · have h1 := f.last
    have h2 := f.blank k
    rwa [show t.curRow = rows.length by omega] at h2

/-- Tables made of rows of texts; the cell in row `r` and column `k` is aligned as in `al`. -/
structure OfMarked (μ : Str → Nat) (al : Nat → Nat → HAlign) (rows : List (List (Option Str))) (t : Table) : Prop where
  zero : μ [] = 0
  inside : Inside t
  texts : Written μ t
  single : ∀ p, Single (t.cell p)
  nrows : t.numRows = rows.length + 1
  ncols : t.numCols = largest (rows.map List.length)
  valigns : ∀ k, t.vAligns k = .top
  colCounter : ∀ k, t.colCounter k = 0
  rowCounter : ∀ r, t.rowCounter r = 0
  text : ∀ i row k, rows[i]? = some row → (t.cell (i, k)).text = (row[k]?).join
  halign : ∀ i row k, rows[i]? = some row → k < row.length → (t.cell (i, k)).hAlign.getD (t.hAligns k) = al i k
  valign : ∀ i k, i ≤ rows.length → (t.cell (i, k)).vAlign = none
  last : ∀ k, (t.cell (rows.length, k)).isSet = false ∧ (t.cell (rows.length, k)).left = none

theorem OfMarked.print {μ al rows t} (hof : OfMarked μ al rows t) (hh : ∀ r ∈ rows, rowHeight r ≤ 2 ^ 31) :
    ∃ t', print t = .ok (shownWith μ al rows, t') := by
  obtain ⟨hz, hi, ht, hsg, r1, r2, r4, r5, r6, text, r3, r7, r8⟩ := hof
  have blank := fun k => (r8 k).1
  by_cases hn : t.numCols = 0
  · refine ⟨t, ?_⟩
    rw [Layout.print, if_pos hn]
    have : shownWith μ al rows = [] := by
      rw [shownWith, List.flatMap_eq_nil_iff]
      rintro ⟨row, i⟩ hr
      have hr : row ∈ rows := by
        obtain ⟨-, -, e⟩ := List.mem_zipIdx hr
        rw [e]; exact List.getElem_mem _
      have hl : row.length ≤ largest (rows.map List.length) := le_largest (List.mem_map_of_mem hr)
      have : row = [] := List.length_eq_zero_iff.1 (by omega)
      subst this
      rfl
    rw [this]
  obtain ⟨w, h, hd, fit, wt, htt⟩ := dimensions_tight hi hsg
  obtain ⟨t', e, kp, e1, e2, e3, e4⟩ := dropLines_ok hi hn (w (t.numCols - 1)) (h (t.numRows - 1)) (fun _ k _ => by
    rw [r1, Nat.add_sub_cancel]
    rw [(r8 k).2]; rfl)
  have sh := dropLines_shows e
  -- the cells
  have row_lt : ∀ {i row}, rows[i]? = some row → i < t.numRows := fun {i row} hr => by
    have := (List.getElem?_eq_some_iff.1 hr).1
    omega
  have wid : ∀ i row k, rows[i]? = some row → (t.cell (i, k)).width = largest ((linesAt row k).map μ) := by
    intro i row k hr
    obtain ⟨x1, _, x3, _⟩ := ht i k (row_lt hr)
    rw [x1.width, text i row k hr] at x3
    exact (Res.ok.inj x3).symm
  have hei : ∀ i row k, rows[i]? = some row → (t.cell (i, k)).height = (linesAt row k).length := by
    intro i row k hr
    rw [(ht i k (row_lt hr)).2.1, ← cellLines_length, text i row k hr]; rfl
  have unset : ∀ r k, r < t.numRows → (t.cell (r, k)).isSet = false → (t.cell (r, k)).width = 0 ∧ (t.cell (r, k)).height = 0 := by
    intro r k hr hp
    obtain ⟨_, x2, x3, x4⟩ := ht r k hr
    rw [x4 hp] at x2 x3
    exact ⟨(Res.ok.inj x3).symm, x2⟩
  have fits : ∀ p, p.1 < t.numRows → p.2 < t.numCols → (t.cell p).width ≤ w p.2 ∧ (t.cell p).height ≤ h p.1 := by
    intro p h1 h2
    cases hp : (t.cell p).isSet with
    | true => exact fit p h1 h2 hp
    | false => have := unset p.1 p.2 h1 hp; exact ⟨this.1 ▸ Nat.zero_le _, this.2 ▸ Nat.zero_le _⟩
  have row_of : ∀ i, i < rows.length → ∃ row, rows[i]? = some row := fun i hi => ⟨rows[i], List.getElem?_eq_getElem hi⟩
  have hw : ∀ k, k < t.numCols → w k = columnWidthBy μ rows k := by
    intro k hk
    refine Nat.le_antisymm ?_ (largest_le fun n hn => ?_)
    · rcases wt k with h | ⟨r, h1, _, h3, h4⟩
      · omega
      · have hr : r < rows.length := by
          rcases Nat.lt_or_ge r rows.length with h | h
          · exact h
          · have : r = rows.length := by omega
            subst this
            rw [blank] at h3
            cases h3
        obtain ⟨row, hrow⟩ := row_of r hr
        rw [← h4, wid r row k hrow]
        exact le_largest (List.mem_map.2 ⟨row, List.mem_of_getElem? hrow, rfl⟩)
    · obtain ⟨row, hrow, rfl⟩ := List.mem_map.1 hn
      obtain ⟨i, hi, hx⟩ := List.getElem_of_mem hrow
      have hx : rows[i]? = some row := by rw [List.getElem?_eq_getElem hi, hx]
      rw [← wid i row k hx]
      exact (fits (i, k) (show i < t.numRows by omega) hk).1
  have hhr : ∀ i row, rows[i]? = some row → h i = rowHeight row := by
    intro i row hx
    have hi : i < rows.length := by
      rcases Nat.lt_or_ge i rows.length with h | h
      · exact h
      · rw [List.getElem?_eq_none h] at hx; cases hx
    obtain ⟨x1, x2⟩ := rowHeight_attained row
    refine Nat.le_antisymm ?_ (x2 _ fun k hk => ?_)
    · rcases htt i with h | ⟨k, _, _, _, h4⟩
      · omega
      · rw [← h4, hei i row k hx]; exact x1 k
    · rw [← hei i row k hx]
      refine (fits (i, k) (show i < t.numRows by omega) (show k < t.numCols from ?_)).2
      rw [r2]
      exact Nat.lt_of_lt_of_le hk (le_largest (List.mem_map_of_mem (List.mem_of_getElem? hx)))
  have hlast : h rows.length = 0 := by
    rcases htt rows.length with h | ⟨k, _, _, h3, _⟩
    · exact h
    · rw [blank] at h3; cases h3
  -- printing
  have bare : Bare μ t' w := by
    refine ⟨hz, fun p => ?_, fun r k hr => ?_, ht.keeps kp, fun k => by rw [e4, r5], sh.rows r6, fun k => by rw [sh.vs, r4], fun r k h1 h2 => ?_⟩
    · obtain ⟨s1, s2, s3⟩ := hsg p
      rw [(kp.cell p).spanX, (kp.cell p).spanY, (kp.cell p).parent]
      exact ⟨s1, s2, s3⟩
    · rw [(sh.cell _).2]
      rw [kp.rows, r1] at hr
      exact r7 r k (by omega)
    · rw [(kp.cell _).width]
      rw [kp.rows] at h1
      rw [e1] at h2
      exact (fits (r, k) h1 h2).1
  have hb := bare.all (h := h) (fun r hr => by
    rw [kp.rows, r1] at hr
    rcases Nat.lt_or_ge r rows.length with hlt | hge
    · obtain ⟨row, hrow⟩ := row_of r hlt
      rw [hhr r row hrow]
      exact hh row (List.mem_of_getElem? hrow)
    · rw [show r = rows.length by omega, hlast]; exact Nat.zero_le _) t'.numRows 0 (by omega) (fun _ => 0)
  refine ⟨t', ?_⟩
  simp only [Layout.print, if_neg hn, hd, Out.of, Out.bind_ok, e, hb, Out.pure_eq]
  congr 2
  rw [kp.rows, r1, ← List.range_eq_range', List.range_succ, List.flatMap_append, List.flatMap_singleton, hlast]
  simp only [List.range_zero, List.map_nil, List.append_nil]
  rw [shownWith, List.zipIdx_eq_zip_range', ← List.range_eq_range']
  have hzip : rows.zip (List.range rows.length) = (List.range rows.length).map fun i => (rows[i]?.getD [], i) := by
    refine List.ext_getElem (by simp) fun i h1 h2 => ?_
    simp at h1
    simp [List.getElem?_eq_getElem h1]
  rw [hzip, List.flatMap_map]
  refine List.flatMap_congr fun r hr => ?_
  obtain ⟨row, hrow⟩ := row_of r (List.mem_range.1 hr)
  dsimp only
  rw [hrow, Option.getD_some, hhr r row hrow]
  refine List.map_congr_left fun i _ => ?_
  rw [bareLine, e1, r2, ← List.range_eq_range']
  refine List.flatMap_congr fun k hk => ?_
  have hk' : k < t.numCols := by rw [r2]; exact List.mem_range.1 hk
  rw [sh.hs, hw k hk', (kp.cell _).text, text r row k hrow, (sh.cell _).1]
  rcases Nat.lt_or_ge k row.length with hlt | hge
  · rw [r3 r row k hrow hlt]; rfl
  · rw [linesAt, List.getElem?_eq_none hge]
    simp only [Option.join_none, cellLines, List.getElem?_nil, Option.getD_none, fill_nil]

theorem shown_by (hs : List HAlign) (rows : List (List (Option Str))) : shown hs rows = shownBy (fun _ k => hs[k]?.getD .left) rows := by
  rw [shown, shownBy, shownWith]
  conv_lhs => rw [← List.zipIdx_map_fst 0 rows]
  rw [List.flatMap_map]
  rw [List.zipIdx_map_fst 0 rows]
  rfl

theorem OfRows.marked {hs rows t} (hof : OfRows hs rows t) : OfMarked columns (fun _ k => hs[k]?.getD .left) rows t := by
  obtain ⟨hm, hsg, r1, r2, r3, r4, r5, r6, r7, r8⟩ := hof
  refine ⟨rfl, hm.all.1, fun r k _ => ⟨(hm.all.2.2 (r, k)).1.reads, (hm.all.2.2 (r, k)).2⟩, hsg, r1, r2, r4, r5, r6, fun i row k hr => ?_, fun i row k hr hk => ?_, fun i k hi => ?_, fun k => by rw [r8]; exact ⟨rfl, rfl⟩⟩
  · cases hk : row[k]? with
    | some s => exact ((r7 i row hr).1 k s hk).2.1
    | none => rw [(r7 i row hr).2 k (List.getElem?_eq_none_iff.1 hk)]; rfl
  · rw [((r7 i row hr).1 k _ (List.getElem?_eq_getElem hk)).2.2.1, Option.getD_none, r3]
  · rcases Nat.lt_or_ge i rows.length with hlt | hge
    · cases hk : rows[i][k]? with
      | some s => exact ((r7 i _ (List.getElem?_eq_getElem hlt)).1 k s hk).2.2.2.1
      | none => rw [(r7 i _ (List.getElem?_eq_getElem hlt)).2 k (List.getElem?_eq_none_iff.1 hk)]
    · rw [show i = rows.length by omega, r8]

theorem OfRows.print {hs rows t} (hof : OfRows hs rows t) (hh : ∀ r ∈ rows, rowHeight r ≤ 2 ^ 31) :
    ∃ t', print t = .ok (shown hs rows, t') := by
  rw [shown_by]
  exact hof.marked.print hh

/-- The alignments may be set in the end, too. -/
theorem rows_made_last (hs : List HAlign) (rows : List (List (Option Str))) (h0 : hs.length ≤ maxCols)
    (hrows : ∀ r ∈ rows, r.length ≤ maxCols ∧ ∀ s ∈ r, Tidy s) :
    ∃ t, calls (rowCalls rows ++ [.setAligns hs []]) empty = .ok t ∧ OfRows hs rows t := by
  obtain ⟨t, e, h⟩ := rows_made [] rows (Nat.zero_le _) hrows
  have e : calls (rowCalls rows) empty = .ok t := by
    have ha : setAligns [] [] empty = .ok empty := rfl
    have e : (do let t ← setAligns [] [] empty; calls (rowCalls rows) t) = .ok t := e
    rwa [ha] at e
  have ha : call (.setAligns hs []) t = .ok { t with hAligns := fun i => hs[i]?.getD (t.hAligns i), vAligns := fun i => t.vAligns i } := by
    simp only [call, setAligns]
    rw [if_neg (by rintro (h | h); · omega
                   · simp at h)]
    rfl
  refine ⟨_, ?_, .call h.made (show Proper t (.setAligns hs []) from trivial) ha, h.single, h.nrows, h.ncols, fun k => ?_, h.valigns, h.colCounter,
    h.rowCounter, h.cell, h.last⟩
  · rw [calls_append, e, Res.bind_ok, calls, ha]
    rfl
  · simp [h.haligns]

end Verif.LayoutSpec
