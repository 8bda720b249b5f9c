import Verif.Spec.LayoutMemory
import Verif.Lemmas.LayoutGeo
import Verif.Lemmas.LayoutOrder
import Verif.Lemmas.LayoutGrid
import Mathlib.Data.List.Perm.Subperm
import Mathlib.Tactic.Tauto

/-!
# Lemmas on tables in memory
-/

namespace Verif.Layout.TMem

theorem get_put (m : TMem) {p : Nat} {d : Block} (h : m.get p = some d) (c : Block) (a : Nat) :
    (m.put p c).get a = if a = p then some c else m.get a := by
  obtain ⟨blocks⟩ := m
  simp only [get, put] at h ⊢
  induction blocks with
  | nil => simp at h
  | cons x xs ih =>
    simp only [List.map_cons, List.find?_cons] at h ⊢
    by_cases hx : x.1 = p
    · simp only [hx, if_true]
      by_cases ha : a = p
      · simp [ha]
      · simp only [ha, if_false, decide_eq_false (Ne.symm ha)]
        have : ∀ ys : List (Nat × Block), (List.find? (fun c => decide (c.1 = a))
            (ys.map fun d => if d.1 = p then (p, c) else d)) =
            List.find? (fun c => decide (c.1 = a)) ys := by
          intro ys
          induction ys with
          | nil => rfl
          | cons y ys ihy =>
            simp only [List.map_cons, List.find?_cons]
            by_cases hy : y.1 = p
            · simp [hy, Ne.symm ha, ihy]
            · simp only [hy, if_false, ihy]
        rw [this]
    · simp only [hx, if_false, decide_false] at h ⊢
      by_cases hxa : x.1 = a
      · have : a ≠ p := fun e => hx (hxa.trans e)
        simp [hxa, this]
      · simp only [hxa, decide_false]
        exact ih h

theorem get_alloc (A : TMalloc) (m : TMem) (c : Block) (a : Nat) :
    (m.alloc A c).2.get a = if a = (m.alloc A c).1 then some c else m.get a := by
  simp only [get, alloc, List.find?_cons]
  by_cases h : a = A.pick m.blocks
  · simp [h]
  · simp [h, Ne.symm h]

theorem alloc_fresh (A : TMalloc) (m : TMem) (c : Block) : m.get (m.alloc A c).1 = none := by
  simp only [get, alloc, Option.map_eq_none_iff, List.find?_eq_none]
  intro x hx h
  exact A.fresh m.blocks x hx (of_decide_eq_true h)

theorem free_ok {m : TMem} {p : Nat} {c : Block} (h : m.get p = some c) :
    ∃ m', m.free p = .ok m' ∧ ∀ a, m'.get a = if a = p then none else m.get a := by
  refine ⟨⟨m.blocks.filter fun c => c.1 ≠ p⟩, by simp only [free, h], fun a => ?_⟩
  simp only [get]
  by_cases ha : a = p
  · subst ha
    rw [if_pos rfl, Option.map_eq_none_iff, List.find?_eq_none]
    intro x hx
    simp only [List.mem_filter, ne_eq, decide_not, Bool.not_eq_true', decide_eq_false_iff_not] at hx
    simpa using hx.2
  · rw [if_neg ha, List.find?_filter]
    congr 2
    funext c
    by_cases hc : c.1 = a <;> simp [hc, ha]

/-- As many blocks as addresses. -/
theorem length_le {m : TMem} {as : List Nat} (hn : as.Nodup) (h : ∀ a ∈ as, m.get a ≠ none) :
    as.length ≤ m.blocks.length := by
  have hs : as ⊆ m.blocks.map (·.1) := fun a ha => by
    have := h a ha
    simp only [get, ne_eq, Option.map_eq_none_iff, List.find?_eq_none, not_forall] at this
    obtain ⟨x, hx, e⟩ := this
    exact List.mem_map.2 ⟨x, hx, by simpa using e⟩
  have := (List.subperm_of_subset hn hs).length_le
  simpa using this

end Verif.Layout.TMem

namespace Verif.LayoutSpec
open Layout

/-! ## Walking along the rows -/

theorem rehome_append {as : List Nat} {c : Cell} (q : Nat) (h : ∀ p, c.parent = some p → p.1 < as.length) :
    rehome (as ++ [q]) c = rehome as c := by
  unfold rehome
  cases hp : c.parent with
  | none => rfl
  | some p => simp [List.getElem?_append_left (h p hp)]

theorem RowsAt.load {m : TMem} {t : Table} {as : List Nat} {own} (h : RowsAt m t as own) {i a : Nat} (ha : as[i]? = some a) :
    ∃ r, m.get a = some (.row r) ∧ m.row a = .ok r ∧ r.next = as[i + 1]? ∧ r.border = t.rowBorder i ∧
      r.counter = t.rowCounter i ∧ ∀ j < maxCols, r.cells j = ⟨rehome as (t.cell (i, j)), own (i, j)⟩ := by
  obtain ⟨r, h1, h2, h3, h4, h5⟩ := h.row i a ha
  exact ⟨r, h1, by simp [TMem.row, h1], h2, h3, h4, h5⟩

theorem RowsAt.lastRow {m : TMem} {t : Table} {as : List Nat} {own} (h : RowsAt m t as own) : ∀ (n : Nat) {i a : Nat},
    as[i]? = some a → as.length ≤ i + n → ∃ l, Layout.lastRow m n a = .ok l ∧ as[as.length - 1]? = some l
  | 0, i, a, ha, hn => by
    have := (List.getElem?_eq_some_iff.1 ha).1
    omega
  | n + 1, i, a, ha, hn => by
    obtain ⟨r, h1, h2, h3, -⟩ := h.load ha
    cases hq : as[i + 1]? with
    | none =>
      refine ⟨a, by simp [Layout.lastRow, h2, h3, hq], ?_⟩
      have e1 := (List.getElem?_eq_some_iff.1 ha).1
      have e2 := List.getElem?_eq_none_iff.1 hq
      rw [show as.length - 1 = i by omega, ha]
    | some q =>
      obtain ⟨l, e1, e2⟩ := h.lastRow n hq (by omega)
      exact ⟨l, by simp [Layout.lastRow, h2, h3, hq, e1], e2⟩

theorem RowsAt.getRow {m : TMem} {t : Table} {as : List Nat} {own} (h : RowsAt m t as own) : ∀ (k : Nat) {i : Nat},
    Layout.getRow m k as[i]? = .ok as[i + k]?
  | 0, i => rfl
  | k + 1, i => by
    cases ha : as[i]? with
    | none =>
      have := List.getElem?_eq_none_iff.1 ha
      rw [List.getElem?_eq_none_iff.2 (show as.length ≤ i + (k + 1) by omega)]
      rfl
    | some a =>
      obtain ⟨r, h1, h2, h3, -⟩ := h.load ha
      simp only [Layout.getRow, h2, h3, Res.bind_ok]
      rw [h.getRow k, show i + 1 + k = i + (k + 1) by omega]

/-! ## Changing a row -/

theorem RowsAt.congr {m : TMem} {t t' : Table} {as : List Nat} {own} (h : RowsAt m t as own) (h1 : t'.numRows = t.numRows)
    (h2 : t'.cell = t.cell) (h3 : t'.rowBorder = t.rowBorder) (h4 : t'.rowCounter = t.rowCounter) : RowsAt m t' as own :=
  ⟨by rw [h1]; exact h.len, by rw [h2, h3, h4]; exact h.row, by rw [h1, h2]; exact h.kin, by rw [h1, h2]; exact h.mine⟩

theorem nodup_index {as : List Nat} (hn : as.Nodup) {i k a : Nat} (hi : as[i]? = some a) (hk : as[k]? = some a) : i = k := by
  obtain ⟨h1, e1⟩ := List.getElem?_eq_some_iff.1 hi
  obtain ⟨h2, e2⟩ := List.getElem?_eq_some_iff.1 hk
  exact (List.Nodup.getElem_inj_iff hn).1 (e1.trans e2.symm)

theorem RowsAt.write {m : TMem} {t t' : Table} {as : List Nat} {own own' : Nat × Nat → Option Nat} (h : RowsAt m t as own)
    (hn : as.Nodup) {i a : Nat} (ha : as[i]? = some a) {r r' : MRow} (hr : m.get a = some (.row r)) (e1 : r'.next = r.next)
    (e2 : r'.border = t'.rowBorder i) (e3 : r'.counter = t'.rowCounter i)
    (e4 : ∀ j < maxCols, r'.cells j = ⟨rehome as (t'.cell (i, j)), own' (i, j)⟩) (e5 : t'.numRows = t.numRows)
    (e6 : ∀ k ≠ i, t'.rowBorder k = t.rowBorder k ∧ t'.rowCounter k = t.rowCounter k ∧
      ∀ j, t'.cell (k, j) = t.cell (k, j) ∧ own' (k, j) = own (k, j))
    (e7 : ∀ j p, j < maxCols → (t'.cell (i, j)).parent = some p → p.1 < t.numRows)
    (e8 : ∀ j q, own' (i, j) = some q → j < maxCols ∧ (t'.cell (i, j)).isSet = true) :
    RowsAt (m.put a (.row r')) t' as own' := by
  refine ⟨h.len.trans e5.symm, fun k b hb => ?_, fun k j p hk hj hp => ?_, fun k j q hq => ?_⟩
  · by_cases hk : k = i
    · subst hk
      obtain rfl : a = b := by rw [ha] at hb; exact Option.some.inj hb
      obtain ⟨r0, g1, g2, -⟩ := h.row _ _ ha
      obtain rfl : r = r0 := by rw [hr] at g1; cases g1; rfl
      exact ⟨r', by rw [TMem.get_put m hr, if_pos rfl], e1.trans g2, e2, e3, e4⟩
    · have hab : b ≠ a := fun e => hk (nodup_index hn hb (e ▸ ha))
      obtain ⟨r0, g1, g2, g3, g4, g5⟩ := h.row _ _ hb
      obtain ⟨f1, f2, f3⟩ := e6 k hk
      refine ⟨r0, by rw [TMem.get_put m hr, if_neg hab]; exact g1, g2, by rw [f1]; exact g3, by rw [f2]; exact g4, fun j hj => ?_⟩
      rw [(f3 j).1, (f3 j).2]
      exact g5 j hj
  · rw [e5] at hk ⊢
    by_cases hki : k = i
    · subst hki; exact e7 j p hj hp
    · rw [((e6 k hki).2.2 j).1] at hp
      exact h.kin k j p hk hj hp
  · rw [e5]
    by_cases hki : k = i
    · subst hki
      have := (List.getElem?_eq_some_iff.1 ha).1
      rw [h.len] at this
      exact ⟨this, e8 j q hq⟩
    · rw [((e6 k hki).2.2 j).1]
      rw [((e6 k hki).2.2 j).2] at hq
      exact h.mine k j q hq

theorem Apart.put {base : Nat → Option Block} {addr : Nat} {m : TMem} {as : List Nat} {own lost} (h : Apart base addr m as own lost)
    {a : Nat} (ha : a ∈ as) (r' : MRow) : Apart base addr (m.put a (.row r')) as own lost := by
  obtain ⟨hb, r, hr⟩ := h.rows a ha
  have g := TMem.get_put m hr (.row r')
  have diff : ∀ q c, m.get q = some c → (∀ r, c ≠ .row r) → (m.put a (.row r')).get q = m.get q := fun q c hq hc => by
    rw [g, if_neg]
    rintro rfl
    rw [hr] at hq
    cases hq
    exact hc r rfl
  refine ⟨by rw [diff _ _ h.table (by simp)]; exact h.table, h.new, h.nodup, fun b hb' => ⟨(h.rows b hb').1, ?_⟩, fun x q hq => ?_, h.inj,
    fun q hq => ?_, fun q h1 h2 h3 h4 => ?_⟩
  · rw [g]
    split
    · exact ⟨r', rfl⟩
    · exact (h.rows b hb').2
  · obtain ⟨k1, k2⟩ := h.text x q hq
    exact ⟨by rw [diff _ _ k1 (by simp)]; exact k1, k2⟩
  · obtain ⟨k1, k2, k3⟩ := h.gone q hq
    exact ⟨by rw [diff _ _ k1 (by simp)]; exact k1, k2, k3⟩
  · rw [g, if_neg (by rintro rfl; exact h2 ha)]
    exact h.other q h1 h2 h3 h4

/-- Both together. -/
structure Held (base : Nat → Option Block) (addr : Nat) (m : TMem) (t : Table) (as : List Nat) (own : Nat × Nat → Option Nat)
    (lost : List Nat) : Prop where
  rows : RowsAt m t as own
  apart : Apart base addr m as own lost

theorem Held.mem {base addr m t as own lost} (_ : Held base addr m t as own lost) {i a : Nat} (ha : as[i]? = some a) : a ∈ as :=
  List.mem_of_getElem? ha

theorem Held.congr {base addr m as own lost} {t t' : Table} (h : Held base addr m t as own lost) (h1 : t'.numRows = t.numRows)
    (h2 : t'.cell = t.cell) (h3 : t'.rowBorder = t.rowBorder) (h4 : t'.rowCounter = t.rowCounter) :
    Held base addr m t' as own lost := ⟨h.rows.congr h1 h2 h3 h4, h.apart⟩

/-- A row is changed, the texts stay where they are. -/
theorem Held.changeRow {base addr m as own lost} {t t' : Table} (h : Held base addr m t as own lost) {i a : Nat} (ha : as[i]? = some a)
    {f : MRow → MRow}
    (hf : ∀ r, r.border = t.rowBorder i → r.counter = t.rowCounter i →
      (∀ j < maxCols, r.cells j = ⟨rehome as (t.cell (i, j)), own (i, j)⟩) →
      (f r).next = r.next ∧ (f r).border = t'.rowBorder i ∧ (f r).counter = t'.rowCounter i ∧
      ∀ j < maxCols, (f r).cells j = ⟨rehome as (t'.cell (i, j)), own (i, j)⟩)
    (e5 : t'.numRows = t.numRows)
    (e6 : ∀ k ≠ i, t'.rowBorder k = t.rowBorder k ∧ t'.rowCounter k = t.rowCounter k ∧ ∀ j, t'.cell (k, j) = t.cell (k, j))
    (e7 : ∀ j p, j < maxCols → (t'.cell (i, j)).parent = some p → p.1 < t.numRows)
    (e8 : ∀ j, j < maxCols → (t.cell (i, j)).isSet = true → (t'.cell (i, j)).isSet = true) :
    ∃ m', m.changeRow a f = .ok m' ∧ Held base addr m' t' as own lost := by
  obtain ⟨r, g1, g2, g3, g4, g5, g6⟩ := h.rows.load ha
  obtain ⟨f1, f2, f3, f4⟩ := hf r g4 g5 g6
  refine ⟨m.put a (.row (f r)), by simp [TMem.changeRow, g2], ?_, h.apart.put (h.mem ha) _⟩
  refine h.rows.write h.apart.nodup ha g1 f1 f2 f3 f4 e5 (fun k hk => ⟨(e6 k hk).1, (e6 k hk).2.1, fun j => ⟨(e6 k hk).2.2 j, rfl⟩⟩) e7
    fun j q hq => ?_
  obtain ⟨-, k2, k3⟩ := h.rows.mine i j q hq
  exact ⟨k2, e8 j k2 k3⟩

/-- A cell is changed. -/
theorem Held.changeCell {base addr m as own lost} {t : Table} (h : Held base addr m t as own lost) {i a k : Nat} (ha : as[i]? = some a)
    (hk : k < maxCols) {fm ft : Cell → Cell} (hf : fm (rehome as (t.cell (i, k))) = rehome as (ft (t.cell (i, k))))
    (hp : ∀ p, (ft (t.cell (i, k))).parent = some p → p.1 < t.numRows)
    (hs : (t.cell (i, k)).isSet = true → (ft (t.cell (i, k))).isSet = true) :
    ∃ m', m.changeCell (a, k) (fun c => { c with data := fm c.data }) = .ok m' ∧
      Held base addr m' (setCell t (i, k) ft) as own lost := by
  have hi : i < t.numRows := by rw [← h.rows.len]; exact (List.getElem?_eq_some_iff.1 ha).1
  refine h.changeRow ha (t' := setCell t (i, k) ft) (fun r h1 h2 h3 => ⟨rfl, h1, h2, fun j hj => ?_⟩) rfl
    (fun n hn => ⟨rfl, rfl, fun j => ?_⟩) (fun j p hj hp' => ?_) (fun j hj hs' => ?_)
  · simp only [setCell, Layout.put, Prod.mk.injEq, true_and]
    by_cases hjk : j = k
    · subst hjk
      simp only [if_true, h3 j hj, hf]
    · simp only [hjk, if_false, h3 j hj]
  · simp only [setCell, Layout.put, Prod.mk.injEq, hn, false_and, if_false]
  · simp only [setCell, Layout.put, Prod.mk.injEq, true_and] at hp'
    by_cases hjk : j = k
    · subst hjk
      exact hp p (by simpa using hp')
    · simp only [hjk, if_false] at hp'
      exact h.rows.kin i j p hi hj hp'
  · simp only [setCell, Layout.put, Prod.mk.injEq, true_and]
    by_cases hjk : j = k
    · subst hjk
      simpa using hs hs'
    · simpa [hjk] using hs'

/-! ## A further row -/

theorem Held.append {base addr m as own lost} (A : TMalloc) {t : Table} (h : Held base addr m t as own lost) {T : MTable} {i : Nat}
    (hc : as[i]? = some T.cur) :
    ∃ q m', appendAt A T m = .ok (q, { T with numRows := T.numRows + 1 }, m') ∧
      Held base addr m' (appendRow t) (as ++ [q]) own lost := by
  have hall : ∀ a ∈ as, m.get a ≠ none := fun a ha => by
    obtain ⟨-, r, hr⟩ := h.apart.rows a ha
    simp [hr]
  have hlen := TMem.length_le h.apart.nodup hall
  obtain ⟨l, e1, e2⟩ := h.rows.lastRow m.blocks.length hc (by omega)
  have hfresh := TMem.alloc_fresh A m (.row emptyRow)
  have hget := TMem.get_alloc A m (.row emptyRow)
  unfold appendAt
  rw [e1]
  simp only [Res.bind_ok]
  generalize m.alloc A (.row emptyRow) = al at hfresh hget ⊢
  obtain ⟨q, m1⟩ := al
  simp only at hfresh hget ⊢
  have hql : l ≠ q := fun e => hall l (h.mem e2) (e ▸ hfresh)
  obtain ⟨r, g1, g2, g3, g4, g5, g6⟩ := h.rows.load e2
  have g1' : m1.get l = some (.row r) := by rw [hget, if_neg hql]; exact g1
  have hput := TMem.get_put m1 g1' (.row { r with next := some q })
  have hqas : q ∉ as := fun hq => hall q hq hfresh
  have hpos : 0 < as.length := by
    have := (List.getElem?_eq_some_iff.1 e2).1
    omega
  refine ⟨q, m1.put l (.row { r with next := some q }), by simp [TMem.changeRow, TMem.row, g1'], ?_, ?_⟩
  · refine ⟨by simp [appendRow, h.rows.len], fun k b hb => ?_, fun k j p hk hj hp => ?_, fun k j p hp => ?_⟩
    · by_cases hk : k < as.length
      · rw [List.getElem?_append_left hk] at hb
        have hbq : b ≠ q := fun e => hqas (e ▸ List.mem_of_getElem? hb)
        have hkn : k ≠ t.numRows := by rw [← h.rows.len]; omega
        obtain ⟨r0, f1, f2, f3, f4, f5⟩ := h.rows.row k b hb
        have cells : ∀ j < maxCols, r0.cells j = ⟨rehome (as ++ [q]) ((appendRow t).cell (k, j)), own (k, j)⟩ := fun j hj => by
          simp only [appendRow, hkn, if_false]
          rw [rehome_append q fun p hp => by rw [h.rows.len]; exact h.rows.kin k j p (by rw [← h.rows.len]; exact hk) hj hp]
          exact f5 j hj
        by_cases hl : b = l
        · subst hl
          have hkl := nodup_index h.apart.nodup hb e2
          obtain rfl : r0 = r := by rw [g1] at f1; cases f1; rfl
          refine ⟨{ r0 with next := some q }, by rw [hput, if_pos rfl], ?_, ?_, ?_, cells⟩
          · rw [List.getElem?_append_right (by omega), show k + 1 - as.length = 0 by omega]; rfl
          · simp only [appendRow, Layout.put, hkn, if_false, f3]
          · simp only [appendRow, Layout.put, hkn, if_false, f4]
        · refine ⟨r0, by rw [hput, if_neg hl, hget, if_neg hbq]; exact f1, ?_, ?_, ?_, cells⟩
          · have hk1 : k + 1 < as.length := by
              by_contra hk1
              have : k = as.length - 1 := by omega
              rw [this, e2] at hb
              exact hl (Option.some.inj hb).symm
            rw [List.getElem?_append_left hk1, f2]
          · simp only [appendRow, Layout.put, hkn, if_false, f3]
          · simp only [appendRow, Layout.put, hkn, if_false, f4]
      · have hb' : k = as.length ∧ b = q := by
          rw [List.getElem?_append_right (by omega)] at hb
          have hlt := (List.getElem?_eq_some_iff.1 hb).1
          simp only [List.length_cons, List.length_nil] at hlt
          refine ⟨by omega, ?_⟩
          rw [show k - as.length = 0 by omega] at hb
          simpa using hb.symm
        obtain ⟨rfl, rfl⟩ := hb'
        refine ⟨emptyRow, by rw [hput, if_neg (Ne.symm hql), hget, if_pos rfl], ?_, ?_, ?_, fun j hj => ?_⟩
        · rw [List.getElem?_eq_none (by simp)]; rfl
        · simp [appendRow, Layout.put, h.rows.len, emptyRow]
        · simp [appendRow, Layout.put, h.rows.len, emptyRow]
        · have : own (as.length, j) = none := by
            cases ho : own (as.length, j) with
            | none => rfl
            | some p =>
              have := (h.rows.mine _ _ _ ho).1
              rw [h.rows.len] at this
              omega
          rw [this]
          simp [appendRow, h.rows.len, emptyRow, rehome]
    · simp only [appendRow] at hk hp ⊢
      by_cases hkn : k = t.numRows
      · simp [hkn] at hp
      · simp only [hkn, if_false] at hp
        have := h.rows.kin k j p (by omega) hj hp
        omega
    · obtain ⟨k1, k2, k3⟩ := h.rows.mine k j p hp
      simp only [appendRow, show k ≠ t.numRows by omega, if_false]
      exact ⟨by omega, k2, k3⟩
  · have hqa : q ≠ addr := by rintro rfl; rw [h.apart.table] at hfresh; cases hfresh
    have hbase : base q = none := by
      by_contra hne
      have := h.apart.other q hqa hqas (fun x hx => by
        obtain ⟨k1, -⟩ := h.apart.text x q hx
        rw [hfresh] at k1
        cases k1) (fun hl => by
        obtain ⟨k1, -⟩ := h.apart.gone q hl
        rw [hfresh] at k1
        cases k1)
      rw [hfresh] at this
      exact hne this.symm
    have same : ∀ p c, m.get p = some c → (∀ r, c ≠ .row r) → (m1.put l (.row { r with next := some q })).get p = some c :=
      fun p c hp hc => by
        have h1 : p ≠ l := by rintro rfl; rw [g1] at hp; cases hp; exact hc r rfl
        have h2 : p ≠ q := by rintro rfl; rw [hfresh] at hp; cases hp
        rw [hput, if_neg h1, hget, if_neg h2]
        exact hp
    refine ⟨same _ _ h.apart.table (by simp), h.apart.new, ?_, fun b hb => ?_, fun x p hp => ?_, h.apart.inj, fun p hp => ?_,
      fun p h1 h2 h3 h4 => ?_⟩
    · rw [List.nodup_append]
      refine ⟨h.apart.nodup, by simp, fun x hx y hy => ?_⟩
      rw [List.mem_singleton] at hy
      rintro rfl
      exact hqas (hy ▸ hx)
    · rw [List.mem_append, List.mem_singleton] at hb
      rcases hb with hb | rfl
      · refine ⟨(h.apart.rows b hb).1, ?_⟩
        obtain ⟨-, r0, hr0⟩ := h.apart.rows b hb
        rw [hput]
        split
        · exact ⟨_, rfl⟩
        · exact ⟨r0, by rw [hget, if_neg (by rintro rfl; exact hqas hb)]; exact hr0⟩
      · exact ⟨hbase, emptyRow, by rw [hput, if_neg (Ne.symm hql), hget, if_pos rfl]⟩
    · obtain ⟨k1, k2⟩ := h.apart.text x p hp
      exact ⟨same _ _ k1 (by simp), k2⟩
    · obtain ⟨k1, k2, k3⟩ := h.apart.gone p hp
      exact ⟨same _ _ k1 (by simp), k2, k3⟩
    · rw [List.mem_append, List.mem_singleton, not_or] at h2
      rw [hput, if_neg (by rintro rfl; exact h2.1 (h.mem e2)), hget, if_neg h2.2]
      exact h.apart.other p h1 h2.1 h3 h4

/-! ## Texts -/

theorem Held.text {base addr m as own lost} (A : TMalloc) {t : Table} (h : Held base addr m t as own lost) :
    Held base addr (m.alloc A .text).2 t as own ((m.alloc A .text).1 :: lost) ∧ (m.alloc A .text).1 ∉ lost := by
  have hfresh := TMem.alloc_fresh A m .text
  have hget := TMem.get_alloc A m .text
  generalize m.alloc A .text = al at hfresh hget ⊢
  obtain ⟨q, m1⟩ := al
  simp only at hfresh hget ⊢
  have same : ∀ p c, m.get p = some c → m1.get p = some c := fun p c hp => by
    rw [hget, if_neg (by rintro rfl; rw [hfresh] at hp; cases hp)]
    exact hp
  have hown : ∀ x, own x ≠ some q := fun x hx => by
    have := (h.apart.text x q hx).1
    rw [hfresh] at this
    cases this
  have hlost : q ∉ lost := fun hl => by
    have := (h.apart.gone q hl).1
    rw [hfresh] at this
    cases this
  have hbase : base q = none := by
    rw [← h.apart.other q (by rintro rfl; rw [h.apart.table] at hfresh; cases hfresh) (fun hq => by
      obtain ⟨-, r, hr⟩ := h.apart.rows q hq
      rw [hfresh] at hr
      cases hr) hown hlost]
    exact hfresh
  refine ⟨⟨⟨h.rows.len, fun i a ha => ?_, h.rows.kin, h.rows.mine⟩, ⟨same _ _ h.apart.table, h.apart.new, h.apart.nodup, fun a ha => ?_,
    fun x p hp => ?_, h.apart.inj, fun p hp => ?_, fun p h1 h2 h3 h4 => ?_⟩⟩, hlost⟩
  · obtain ⟨r, e1, e2⟩ := h.rows.row i a ha
    exact ⟨r, same _ _ e1, e2⟩
  · obtain ⟨e1, r, e2⟩ := h.apart.rows a ha
    exact ⟨e1, r, same _ _ e2⟩
  · obtain ⟨e1, e2⟩ := h.apart.text x p hp
    exact ⟨same _ _ e1, e2⟩
  · rw [List.mem_cons] at hp
    rcases hp with rfl | hp
    · exact ⟨by rw [hget, if_pos rfl], hbase, hown⟩
    · obtain ⟨e1, e2, e3⟩ := h.apart.gone p hp
      exact ⟨same _ _ e1, e2, e3⟩
  · rw [List.mem_cons, not_or] at h4
    rw [hget, if_neg h4.1]
    exact h.apart.other p h1 h2 h3 h4.2

/-- A cell gets another text of its own. -/
theorem Apart.swap {base addr m as own lost} (h : Apart base addr m as own lost) (x : Nat × Nat) {o : Option Nat} {lost' : List Nat}
    (ho : ∀ q, o = some q → q ∈ lost) (hl : ∀ q, q ∈ lost' ↔ (q ∈ lost ∧ o ≠ some q) ∨ own x = some q) :
    Apart base addr m as (Layout.put own x o) lost' := by
  have hput : ∀ y, Layout.put own x o y = if y = x then o else own y := fun _ => rfl
  refine ⟨h.table, h.new, h.nodup, h.rows, fun y q hq => ?_, fun y z q hy hz => ?_, fun q hq => ?_, fun q h1 h2 h3 h4 => ?_⟩
  · rw [hput] at hq
    split at hq
    · obtain ⟨e1, e2, -⟩ := h.gone q (ho q hq)
      exact ⟨e1, e2⟩
    · exact h.text y q hq
  · rw [hput] at hy hz
    split at hy <;> split at hz
    · rename_i e1 e2; exact e1.trans e2.symm
    · exact absurd hz ((h.gone q (ho q hy)).2.2 z)
    · exact absurd hy ((h.gone q (ho q hz)).2.2 y)
    · exact h.inj y z q hy hz
  · rcases (hl q).1 hq with ⟨e1, e2⟩ | e1
    · obtain ⟨g1, g2, g3⟩ := h.gone q e1
      refine ⟨g1, g2, fun y hy => ?_⟩
      rw [hput] at hy
      split at hy
      · exact e2 hy
      · exact g3 y hy
    · obtain ⟨g1, g2⟩ := h.text x q e1
      refine ⟨g1, g2, fun y hy => ?_⟩
      rw [hput] at hy
      split at hy
      · exact (h.gone q (ho q hy)).2.2 x e1
      · rename_i hne
        exact hne (h.inj y x q hy e1)
  · have hn : o ≠ some q := fun e => h3 x (by rw [hput, if_pos rfl]; exact e)
    rw [hl, not_or, not_and] at h4
    refine h.other q h1 h2 (fun y hy => ?_) fun hq => h4.1 hq hn
    by_cases hyx : y = x
    · exact h4.2 (hyx ▸ hy)
    · exact h3 y (by rw [hput, if_neg hyx]; exact hy)

/-- A text is put into a cell. -/
theorem Held.putText {base addr m as own lost} {t : Table} (h : Held base addr m t as own lost) {i a k : Nat} (ha : as[i]? = some a)
    (hk : k < maxCols) {f : Cell → Cell} (hf : ∀ c, f (rehome as c) = rehome as (f c)) (hp : ∀ c, (f c).parent = c.parent)
    (hs : ∀ c, (f c).isSet = true) {o : Option Nat} {lost' : List Nat} (ho : ∀ q, o = some q → q ∈ lost)
    (hl : ∀ q, q ∈ lost' ↔ (q ∈ lost ∧ o ≠ some q) ∨ own (i, k) = some q) :
    ∃ m' r, m.changeCell (a, k) (fun c => ⟨f c.data, o⟩) = .ok m' ∧ m'.row a = .ok r ∧
      (∀ j < maxCols, r.cells j = ⟨rehome as ((setCell t (i, k) f).cell (i, j)), Layout.put own (i, k) o (i, j)⟩) ∧
      Held base addr m' (setCell t (i, k) f) as (Layout.put own (i, k) o) lost' := by
  have hi : i < t.numRows := by rw [← h.rows.len]; exact (List.getElem?_eq_some_iff.1 ha).1
  obtain ⟨r, g1, g2, g3, g4, g5, g6⟩ := h.rows.load ha
  have cells : ∀ j < maxCols, (Layout.put r.cells k ⟨f (r.cells k).data, o⟩ j) =
      ⟨rehome as ((setCell t (i, k) f).cell (i, j)), Layout.put own (i, k) o (i, j)⟩ := fun j hj => by
    simp only [setCell, Layout.put, Prod.mk.injEq, true_and]
    by_cases hjk : j = k
    · subst hjk
      simp only [if_true, g6 j hj, hf]
    · simp only [hjk, if_false, g6 j hj]
  refine ⟨m.put a (.row { r with cells := Layout.put r.cells k ⟨f (r.cells k).data, o⟩ }),
    { r with cells := Layout.put r.cells k ⟨f (r.cells k).data, o⟩ }, by simp [TMem.changeCell, TMem.changeRow, g2], by simp [TMem.row, TMem.get_put m g1], cells, ?_, ?_⟩
  · refine h.rows.write h.apart.nodup ha g1 rfl g4 g5 cells rfl (fun n hn => ⟨rfl, rfl, fun j => ?_⟩) (fun j p hj hp' => ?_)
      (fun j q hq => ?_)
    · simp [setCell, Layout.put, hn]
    · simp only [setCell, Layout.put, Prod.mk.injEq, true_and] at hp'
      by_cases hjk : j = k
      · subst hjk
        simp only [if_true, hp] at hp'
        exact h.rows.kin i j p hi hj hp'
      · simp only [hjk, if_false] at hp'
        exact h.rows.kin i j p hi hj hp'
    · simp only [setCell, Layout.put, Prod.mk.injEq, true_and] at hq ⊢
      by_cases hjk : j = k
      · subst hjk
        exact ⟨hk, by simp [hs]⟩
      · simp only [hjk, if_false] at hq ⊢
        exact (h.rows.mine i j q hq).2
  · exact (h.apart.swap (i, k) ho hl).put (h.mem ha) _

/-! ## The calls -/

section
variable {base : Nat → Option Block} {m : TMem} {T : MTable} {t t' : Table} {as : List Nat} {own : Nat × Nat → Option Nat}
  {lost : List Nat} (A : TMalloc)

/-- The result of a call that does not concern texts. -/
def Done (base : Nat → Option Block) (addr : Nat) (own : Nat × Nat → Option Nat) (lost : List Nat) (t' : Table) (r : Res (MTable × TMem)) : Prop :=
  ∃ T' m' as', r = .ok (T', m') ∧ T'.addr = addr ∧ SameTable T' t' as' ∧ Held base addr m' t' as' own lost

theorem skipSetAt_eq {r : MRow} {i : Nat} (h : ∀ j < maxCols, r.cells j = ⟨rehome as (t.cell (i, j)), own (i, j)⟩) :
    ∀ (n k : Nat), k + n ≤ maxCols → skipSetAt r.cells n k = skipSet t i n k
  | 0, _, _ => rfl
  | n + 1, k, hk => by
    simp only [skipSetAt, skipSet, h k (by omega), rehome]
    rw [skipSetAt_eq h n (k + 1) (by omega)]

theorem appendRows_with (n x y : Nat) (t : Table) :
    appendRows n { t with curCol := x, curRow := y } = { appendRows n t with curCol := x, curRow := y } := by
  induction n generalizing t with
  | zero => rfl
  | succ n ih => exact ih (appendRow t)

theorem appendLoop_spec (n : Nat) : ∀ {T : MTable} {m : TMem} {t : Table} {as : List Nat}, SameTable T t as →
    Held base T.addr m t as own lost →
    Done base T.addr own lost { appendRows (n + 1) t with curRow := t.numRows + n } (appendLoop A (n + 1) T m) := by
  induction n with
  | zero =>
    intro T m t as hs h
    obtain ⟨q, m', e1, e2⟩ := h.append A hs.cur
    refine ⟨{ T with numRows := T.numRows + 1, cur := q }, m', as ++ [q], by simp only [appendLoop, e1, Res.bind_ok], rfl, ?_, e2.congr rfl rfl rfl rfl⟩
    have hl : 0 < as.length := by
      have := (List.getElem?_eq_some_iff.1 hs.first).1
      omega
    refine ⟨by rw [List.getElem?_append_left hl]; exact hs.first, ?_, hs.curCol, hs.numCols, by simp [appendRows, appendRow, hs.numRows],
      hs.colBorder, hs.colCounter, hs.hAligns, hs.vAligns⟩
    simp only [Nat.add_zero]
    rw [← h.rows.len, List.getElem?_append_right (Nat.le_refl _), Nat.sub_self]
    rfl
  | succ n ih =>
    intro T m t as hs h
    obtain ⟨q, m', e1, e2⟩ := h.append A hs.cur
    have hl : 0 < as.length := by
      have := (List.getElem?_eq_some_iff.1 hs.first).1
      omega
    have hs' : SameTable { T with numRows := T.numRows + 1, cur := q } { appendRow t with curRow := t.numRows } (as ++ [q]) := by
      refine ⟨by rw [List.getElem?_append_left hl]; exact hs.first, ?_, hs.curCol, hs.numCols, by simp [appendRow, hs.numRows],
        hs.colBorder, hs.colCounter, hs.hAligns, hs.vAligns⟩
      show (as ++ [q])[t.numRows]? = _
      rw [← h.rows.len, List.getElem?_append_right (Nat.le_refl _), Nat.sub_self]
      rfl
    obtain ⟨T', m2, as', g1, g2, g3, g4⟩ := ih hs' (e2.congr (t' := { appendRow t with curRow := t.numRows }) rfl rfl rfl rfl)
    have ht : ({ appendRows (n + 1) { appendRow t with curRow := t.numRows } with curRow := t.numRows + 1 + n } : Table)
        = { appendRows (n + 2) t with curRow := t.numRows + (n + 1) } := by
      have := appendRows_with (n + 1) t.curCol t.numRows (appendRow t)
      rw [show ({ appendRow t with curRow := t.numRows } : Table) = { appendRow t with curCol := t.curCol, curRow := t.numRows } from rfl,
        this]
      have hc : ∀ k (t : Table), (appendRows k t).curCol = t.curCol := fun k => by
        induction k with
        | zero => exact fun _ => rfl
        | succ k ih => exact fun t => ih (appendRow t)
      have hcc := hc (n + 1) (appendRow t)
      show ({ appendRows (n + 1) (appendRow t) with curCol := t.curCol, curRow := t.numRows + 1 + n } : Table) = _
      rw [show t.curCol = (appendRows (n + 1) (appendRow t)).curCol from hcc.symm, show t.numRows + 1 + n = t.numRows + (n + 1) by omega]
      rfl
    have ht' : ({ appendRows (n + 1) { appendRow t with curRow := t.numRows } with
        curRow := ({ appendRow t with curRow := t.numRows } : Table).numRows + n } : Table)
        = { appendRows (n + 2) t with curRow := t.numRows + (n + 1) } := ht
    rw [ht'] at g3 g4
    exact ⟨T', m2, as', by rw [appendLoop, e1]; exact g1, g2, g3, g4⟩

theorem setPosition_spec (hs : SameTable T t as) (h : Held base T.addr m t as own lost) {x y : Nat} (he : setPosition x y t = .ok t') :
    Done base T.addr own lost t' (setPositionAt A x y T m) := by
  unfold setPosition at he
  unfold setPositionAt
  split at he
  · cases he
  · rename_i hx
    cases he
    rw [if_neg hx]
    by_cases hy : y < T.numRows
    · rw [if_pos hy]
      have hy' : y < as.length := by rw [h.rows.len, ← hs.numRows]; exact hy
      have hg := h.rows.getRow y (i := 0)
      rw [hs.first, Nat.zero_add, List.getElem?_eq_getElem hy'] at hg
      refine ⟨{ T with curCol := x, cur := as[y] }, m, as, by simp only [hg, Res.bind_ok]; rfl, rfl, ?_, ?_⟩
      · rw [show y + 1 - t.numRows = 0 by rw [← hs.numRows]; omega]
        exact ⟨hs.first, List.getElem?_eq_getElem hy', rfl, hs.numCols, hs.numRows, hs.colBorder, hs.colCounter, hs.hAligns, hs.vAligns⟩
      · rw [show y + 1 - t.numRows = 0 by rw [← hs.numRows]; omega]
        exact h.congr rfl rfl rfl rfl
    · rw [if_neg hy]
      have hn : y + 1 - T.numRows = (y - T.numRows) + 1 := by omega
      have hs' : SameTable { T with curCol := x } { t with curCol := x } as :=
        ⟨hs.first, hs.cur, rfl, hs.numCols, hs.numRows, hs.colBorder, hs.colCounter, hs.hAligns, hs.vAligns⟩
      have hd := appendLoop_spec A (y - T.numRows) hs' (m := m) (base := base) (own := own) (lost := lost) (h.congr rfl rfl rfl rfl)
      rw [hn]
      have ht : ({ appendRows (y - T.numRows + 1) { t with curCol := x } with curRow := t.numRows + (y - T.numRows) } : Table)
          = { appendRows (y + 1 - t.numRows) t with curCol := x, curRow := y } := by
        have e := appendRows_with (y - T.numRows + 1) x t.curRow t
        rw [show ({ t with curCol := x } : Table) = { t with curCol := x, curRow := t.curRow } from rfl, e]
        rw [← hs.numRows, show T.numRows + (y - T.numRows) = y by omega, ← hn]
      rw [← ht]
      exact hd

theorem nextRow_spec (hs : SameTable T t as) (h : Held base T.addr m t as own lost) :
    Done base T.addr own lost (nextRow t) (nextRowAt A T m) := by
  obtain ⟨r, g1, g2, g3, -⟩ := h.rows.load hs.cur
  unfold nextRow nextRowAt
  simp only [g2, Res.bind_ok, g3]
  by_cases hr : t.curRow + 1 < t.numRows
  · rw [if_pos hr]
    have hl : t.curRow + 1 < as.length := by rw [h.rows.len]; exact hr
    rw [List.getElem?_eq_getElem hl]
    obtain ⟨r', f1, f2, f3, f4, f5, f6⟩ := h.rows.load (List.getElem?_eq_getElem hl)
    refine ⟨{ T with cur := as[t.curRow + 1], curCol := skipSetAt r'.cells maxCols 0 }, m, as, by simp only [f2, Res.bind_ok]; rfl, rfl, ?_, h.congr rfl rfl rfl rfl⟩
    exact ⟨hs.first, List.getElem?_eq_getElem hl, skipSetAt_eq f6 maxCols 0 (by omega), hs.numCols, hs.numRows, hs.colBorder, hs.colCounter,
      hs.hAligns, hs.vAligns⟩
  · rw [if_neg hr, List.getElem?_eq_none (by rw [h.rows.len]; omega)]
    obtain ⟨q, m', e1, e2⟩ := h.append A hs.cur
    have hl : 0 < as.length := by
      have := (List.getElem?_eq_some_iff.1 hs.first).1
      omega
    refine ⟨{ T with numRows := T.numRows + 1, cur := q, curCol := 0 }, m', as ++ [q], by simp only [e1, Res.bind_ok]; rfl, rfl, ?_, e2.congr rfl rfl rfl rfl⟩
    refine ⟨by rw [List.getElem?_append_left hl]; exact hs.first, ?_, rfl, hs.numCols, by simp [appendRow, hs.numRows],
      hs.colBorder, hs.colCounter, hs.hAligns, hs.vAligns⟩
    rw [← h.rows.len, List.getElem?_append_right (Nat.le_refl _), Nat.sub_self]
    rfl

theorem onCurrent_spec (hs : SameTable T t as) (h : Held base T.addr m t as own lost) {f : Cell → Cell}
    (hf : ∀ c, f (rehome as c) = rehome as (f c)) (hp : ∀ c, (f c).parent = c.parent) (hi : ∀ c, (f c).isSet = c.isSet)
    (he : onCurrent f t = .ok t') : Done base T.addr own lost t' (onCurrentAt f T m) := by
  unfold onCurrent at he
  unfold onCurrentAt
  split at he
  · cases he
  · rename_i hx
    cases he
    have hr : t.curRow < t.numRows := by rw [← h.rows.len]; exact (List.getElem?_eq_some_iff.1 hs.cur).1
    have hx' : t.curCol < maxCols := by omega
    obtain ⟨m', e1, e2⟩ := h.changeCell hs.cur (k := t.curCol) hx' (fm := f) (ft := f) (hf _)
      (fun p hp' => h.rows.kin _ _ p hr hx' (by rw [hp] at hp'; exact hp')) (fun hs' => by rw [hi]; exact hs')
    rw [← hs.curCol] at e1
    rw [hs.curCol] at e1 ⊢
    refine ⟨T, m', as, by simp only [if_neg hx, e1, Res.bind_ok]; rfl, rfl, ?_, e2⟩
    exact ⟨hs.first, hs.cur, hs.curCol, hs.numCols, hs.numRows, hs.colBorder, hs.colCounter, hs.hAligns, hs.vAligns⟩

theorem onRow_spec (hs : SameTable T t as) (h : Held base T.addr m t as own lost) {f : Cell → Cell}
    (hf : ∀ c, f (rehome as c) = rehome as (f c)) (hp : ∀ c, (f c).parent = c.parent) (hi : ∀ c, (f c).isSet = c.isSet) :
    Done base T.addr own lost (onRow f t) (onRowAt f T m) := by
  have hr : t.curRow < t.numRows := by rw [← h.rows.len]; exact (List.getElem?_eq_some_iff.1 hs.cur).1
  obtain ⟨m', e1, e2⟩ := h.changeRow hs.cur (t' := onRow f t)
    (f := fun r => { r with cells := fun j => if j < maxCols then { r.cells j with data := f (r.cells j).data } else r.cells j })
    (fun r h1 h2 h3 => ⟨rfl, h1, h2, fun j hj => by simp [onRow, hj, h3 j hj, hf]⟩) rfl
    (fun k hk => ⟨rfl, rfl, fun j => by simp [onRow, hk]⟩)
    (fun j p hj hp' => by
      simp only [onRow, true_and, hj, if_true, hp] at hp'
      exact h.rows.kin _ _ p hr hj hp')
    (fun j hj hs' => by simpa [onRow, hj, hi] using hs')
  exact ⟨T, m', as, by simp only [onRowAt, e1, Res.bind_ok]; rfl, rfl,
    ⟨hs.first, hs.cur, hs.curCol, hs.numCols, hs.numRows, hs.colBorder, hs.colCounter, hs.hAligns, hs.vAligns⟩, e2⟩

theorem setHline_spec (hs : SameTable T t as) (h : Held base T.addr m t as own lost) (s : Border) :
    Done base T.addr own lost (setHline s t) (setHlineAt s T m) := by
  have hr : t.curRow < t.numRows := by rw [← h.rows.len]; exact (List.getElem?_eq_some_iff.1 hs.cur).1
  obtain ⟨m', e1, e2⟩ := h.changeRow hs.cur (t' := setHline s t)
    (f := fun r => { r with counter := recount r.border s r.counter, border := s })
    (fun r h1 h2 h3 => ⟨rfl, by simp [setHline, Layout.put], by simp [setHline, Layout.put, h1, h2], h3⟩) rfl
    (fun k hk => ⟨by simp [setHline, Layout.put, hk], by simp [setHline, Layout.put, hk], fun j => rfl⟩)
    (fun j p hj hp' => h.rows.kin _ _ p hr hj hp')
    (fun j hj hs' => hs')
  exact ⟨T, m', as, by simp only [setHlineAt, e1, Res.bind_ok]; rfl, rfl,
    ⟨hs.first, hs.cur, hs.curCol, hs.numCols, hs.numRows, hs.colBorder, hs.colCounter, hs.hAligns, hs.vAligns⟩, e2⟩

theorem setVline_spec (hs : SameTable T t as) {i : Nat} {s : Border} (he : setVline i s t = .ok t') :
    ∃ T', setVlineAt i s T = .ok T' ∧ T'.addr = T.addr ∧ SameTable T' t' as ∧ t'.numRows = t.numRows ∧ t'.cell = t.cell ∧
      t'.rowBorder = t.rowBorder ∧ t'.rowCounter = t.rowCounter := by
  unfold setVline at he
  split at he
  · cases he
  · rename_i hi
    cases he
    refine ⟨{ T with
      numCols := if T.numCols ≤ i then i + 1 else T.numCols
      colCounter := put T.colCounter i (recount (T.colBorder i) s (T.colCounter i))
      colBorder := put T.colBorder i s }, by rw [setVlineAt, if_neg hi], rfl, ?_, rfl, rfl, rfl, rfl⟩
    exact ⟨hs.first, hs.cur, hs.curCol, by simp only [hs.numCols], hs.numRows, by simp only [hs.colBorder],
      by simp only [hs.colBorder, hs.colCounter], hs.hAligns, hs.vAligns⟩

theorem vlines_spec {s : Border} : ∀ (n i : Nat) {T : MTable} {t t' : Table}, SameTable T t as → vlinesLoop s n i t = .ok t' →
    ∃ T', vlinesAt s n i T = .ok T' ∧ T'.addr = T.addr ∧ SameTable T' t' as ∧ t'.numRows = t.numRows ∧ t'.cell = t.cell ∧
      t'.rowBorder = t.rowBorder ∧ t'.rowCounter = t.rowCounter
  | 0, i, T, t, t', hs, he => by
    cases he
    exact ⟨T, rfl, rfl, hs, rfl, rfl, rfl, rfl⟩
  | n + 1, i, T, t, t', hs, he => by
    obtain ⟨t1, h1, h2⟩ := Res.bind_eq_ok.1 he
    obtain ⟨T1, e1, e2, e3, e4, e5, e6, e7⟩ := setVline_spec hs h1
    obtain ⟨T2, f1, f2, f3, f4, f5, f6, f7⟩ := vlines_spec n (i + 1) e3 h2
    exact ⟨T2, by simp only [vlinesAt, e1, Res.bind_ok, f1], f2.trans e2, f3, f4.trans e4, f5.trans e5, f6.trans e6, f7.trans e7⟩

theorem makeBoxed_spec (hs : SameTable T t as) (h : Held base T.addr m t as own lost) {s : Border} (he : makeBoxed s t = .ok t') :
    Done base T.addr own lost t' (makeBoxedAt A s T m) := by
  obtain ⟨t1, h1, he⟩ := Res.bind_eq_ok.1 he
  obtain ⟨t2, h2, he⟩ := Res.bind_eq_ok.1 he
  obtain ⟨t3, h3, he⟩ := Res.bind_eq_ok.1 he
  obtain ⟨t4, h4, he⟩ := Res.bind_eq_ok.1 he
  cases he
  obtain ⟨T1, m1, as1, e1, a1, s1, k1⟩ := setPosition_spec A hs h h1
  obtain ⟨T2, e2, a2, s2, q1, q2, q3, q4⟩ := setVline_spec s1 h2
  have a2' := a2.trans a1
  obtain ⟨T3, m3, as3, e3, a3, s3, k3⟩ := setHline_spec (m := m1) (own := own) (lost := lost) (base := base) s2
    (by rw [a2']; exact k1.congr q1 q2 q3 q4) s
  have a3' := a3.trans a2'
  have n1 := s3.numCols
  have n2 := s3.numRows
  obtain ⟨T4, m4, as4, e4, a4, s4, k4⟩ := setPosition_spec A s3 (by rw [a3]; exact k3) h3
  obtain ⟨T5, e5, a5, s5, w1, w2, w3, w4⟩ := setVline_spec s4 h4
  have a5' := (a5.trans a4).trans a3'
  obtain ⟨T6, m6, as6, e6, a6, s6, k6⟩ := setHline_spec (m := m4) (own := own) (lost := lost) (base := base) s5
    (by rw [a5, a4]; exact k4.congr w1 w2 w3 w4) s
  refine ⟨T6, m6, as6, ?_, a6.trans a5', s6, ?_⟩
  · simp only [makeBoxedAt, e1, e2, e3, Res.bind_ok, n1, n2, e4, s4.numCols, e5, e6]
  · rw [a5'] at k6
    exact k6

theorem overrideLeft_kept (hs : SameTable T t as) (h : Held base T.addr m t as own lost) {s : Border} (he : overrideLeft s t = .ok t') :
    ∃ T' m', overrideLeftAt s T m = .ok (T', m') ∧ T'.addr = T.addr ∧ SameTable T' t' as ∧ Held base T.addr m' t' as own lost := by
  unfold overrideLeft at he
  unfold overrideLeftAt
  split at he
  · cases he
  · rename_i hx
    cases he
    have hr : t.curRow < t.numRows := by rw [← h.rows.len]; exact (List.getElem?_eq_some_iff.1 hs.cur).1
    obtain ⟨r, g1, g2, g3, g4, g5, g6⟩ := h.rows.load hs.cur
    obtain ⟨m', e1, e2⟩ := h.changeCell hs.cur (k := t.curCol) (by omega) (fm := fun c => { c with left := some s })
      (ft := fun c => { c with left := some s }) rfl (fun p hp' => h.rows.kin _ _ p hr (by omega) hp') (fun hs' => hs')
    rw [hs.curCol]
    refine ⟨{ T with colCounter := put T.colCounter t.curCol (recount ((r.cells t.curCol).data.left.getD .none) s (T.colCounter t.curCol)) },
      m', by rw [if_neg hx, ← hs.curCol] at *; simp only [g2, e1, Res.bind_ok]; rfl, rfl, ?_, e2.congr rfl rfl rfl rfl⟩
    refine ⟨hs.first, hs.cur, hs.curCol, hs.numCols, hs.numRows, hs.colBorder, ?_, hs.hAligns, hs.vAligns⟩
    simp only [g6 t.curCol (by omega), hs.colCounter, rehome]

theorem overrideAbove_kept (hs : SameTable T t as) (h : Held base T.addr m t as own lost) {s : Border} (he : overrideAbove s t = .ok t') :
    ∃ T' m', overrideAboveAt s T m = .ok (T', m') ∧ T'.addr = T.addr ∧ SameTable T' t' as ∧ Held base T.addr m' t' as own lost := by
  unfold overrideAbove at he
  unfold overrideAboveAt
  split at he
  · cases he
  · rename_i hx
    cases he
    have hr : t.curRow < t.numRows := by rw [← h.rows.len]; exact (List.getElem?_eq_some_iff.1 hs.cur).1
    have hx' : t.curCol < maxCols := by omega
    rw [hs.curCol, if_neg hx]
    obtain ⟨m1, e1, e2⟩ := h.changeRow hs.cur
      (t' := { t with rowCounter := put t.rowCounter t.curRow (recount ((t.cell (t.curRow, t.curCol)).above.getD .none) s (t.rowCounter t.curRow)) })
      (f := fun r => { r with counter := recount ((r.cells t.curCol).data.above.getD .none) s r.counter })
      (fun r h1 h2 h3 => ⟨rfl, h1, by simp [Layout.put, h2, h3 t.curCol hx', rehome], h3⟩) rfl
      (fun k hk => ⟨rfl, by simp [Layout.put, hk], fun j => rfl⟩)
      (fun j p hj hp' => h.rows.kin _ _ p hr hj hp') (fun j hj hs' => hs')
    obtain ⟨m2, f1, f2⟩ := e2.changeCell hs.cur (k := t.curCol) hx' (fm := fun c => { c with above := some s })
      (ft := fun c => { c with above := some s }) rfl (fun p hp' => h.rows.kin _ _ p hr hx' hp') (fun hs' => hs')
    refine ⟨T, m2, by simp only [e1, f1, Res.bind_ok]; rfl, rfl, ?_, f2.congr rfl rfl rfl rfl⟩
    exact ⟨hs.first, hs.cur, hs.curCol, hs.numCols, hs.numRows, hs.colBorder, hs.colCounter, hs.hAligns, hs.vAligns⟩

/-! ### Spans -/

theorem spanRow_with (p : Nat × Nat) (i : Nat) : ∀ (n j : Nat) (t : Table), ∃ f, (spanRow p i n j t).1 = { t with cell := f }
  | 0, _, t => ⟨t.cell, rfl⟩
  | n + 1, j, t => by
    unfold spanRow
    split
    · exact spanRow_with p i n (j + 1) t
    · split
      · exact ⟨_, rfl⟩
      · obtain ⟨f, hf⟩ := spanRow_with p i n (j + 1) (setCell t (p.1 + i, p.2 + j) (adopt p i j))
        exact ⟨f, hf⟩

theorem spanRow_spec {addr r0 b c a i : Nat} (hb : as[r0]? = some b) (ha : as[r0 + i]? = some a) : ∀ (n j : Nat) {t : Table} {m : TMem},
    Held base addr m t as own lost → c + j + n ≤ maxCols → c < maxCols →
    ∃ m', spanRowAt (b, c) a i n j m = .ok (m', (spanRow (r0, c) i n j t).2) ∧ Held base addr m' (spanRow (r0, c) i n j t).1 as own lost
  | 0, j, t, m, h, _, _ => ⟨m, rfl, h⟩
  | n + 1, j, t, m, h, hc, hc' => by
    unfold spanRow spanRowAt
    by_cases h0 : i = 0 ∧ j = 0
    · rw [if_pos h0, if_pos h0]
      exact spanRow_spec hb ha n (j + 1) h (by omega) hc'
    · rw [if_neg h0, if_neg h0]
      obtain ⟨r, g1, g2, g3, g4, g5, g6⟩ := h.rows.load ha
      have hj : c + j < maxCols := by omega
      have hset : (r.cells (c + j)).data.isSet = (t.cell (r0 + i, c + j)).isSet := by rw [g6 _ hj]; rfl
      have hr0 : r0 < t.numRows := by rw [← h.rows.len]; exact (List.getElem?_eq_some_iff.1 hb).1
      simp only [g2, Res.bind_ok, hset]
      by_cases hs : (t.cell (r0 + i, c + j)).isSet = true
      · rw [if_pos hs, if_pos hs]
        obtain ⟨m', e1, e2⟩ := h.changeCell hb (k := c) hc' (fm := fun c => { c with spanY := i, spanX := j })
          (ft := fun c => { c with spanY := i, spanX := j }) rfl (fun p hp' => h.rows.kin _ _ p hr0 hc' hp') (fun hs' => hs')
        exact ⟨m', by simp only [e1, Res.bind_ok]; rfl, e2⟩
      · rw [if_neg hs, if_neg hs]
        obtain ⟨m', e1, e2⟩ := h.changeCell ha (k := c + j) hj (fm := adopt (b, c) i j) (ft := adopt (r0, c) i j)
          (by simp [adopt, rehome, hb]) (fun p hp' => by cases hp'; exact hr0) (fun _ => rfl)
        obtain ⟨m2, f1, f2⟩ := spanRow_spec hb ha n (j + 1) e2 (by omega) hc'
        exact ⟨m2, by simp only [e1, Res.bind_ok, f1], f2⟩

theorem spanRows_spec {r0 b c spanX : Nat} (hc : c + spanX ≤ maxCols) (hc' : c < maxCols) : ∀ (n i : Nat) {a : Nat} {T : MTable} {t : Table}
    {m : TMem} {as : List Nat}, SameTable T t as → Held base T.addr m t as own lost → as[r0]? = some b → as[r0 + i]? = some a →
    Done base T.addr own lost (spanRows (r0, c) spanX n i t) (spanRowsAt A (b, c) spanX n i a T m)
  | 0, i, a, T, t, m, as, hs, h, hb, ha => ⟨T, m, as, rfl, rfl, hs, h⟩
  | n + 1, i, a, T, t, m, as, hs, h, hb, ha => by
    obtain ⟨m1, e1, e2⟩ := spanRow_spec hb ha spanX 0 h (by omega) hc'
    obtain ⟨f, hf⟩ := spanRow_with (r0, c) i spanX 0 t
    have hs1 : SameTable T (spanRow (r0, c) i spanX 0 t).1 as := by
      rw [hf]
      exact ⟨hs.first, hs.cur, hs.curCol, hs.numCols, hs.numRows, hs.colBorder, hs.colCounter, hs.hAligns, hs.vAligns⟩
    unfold spanRows spanRowsAt
    rw [e1]
    simp only [Res.bind_ok]
    generalize spanRow (r0, c) i spanX 0 t = x at e2 hs1 hf
    obtain ⟨t1, cut⟩ := x
    dsimp only at e2 hs1 hf
    cases cut
    · simp only [Bool.false_eq_true, if_false]
      by_cases hn : n = 0
      · subst hn
        rw [if_pos rfl, if_neg (by simp)]
        exact ⟨T, m1, as, rfl, rfl, hs1, e2⟩
      · rw [if_neg hn]
        obtain ⟨r, g1, g2, g3, -⟩ := e2.rows.load ha
        simp only [g2, Res.bind_ok, g3]
        by_cases hl : t1.numRows ≤ r0 + i + 1
        · rw [if_pos ⟨hn, hl⟩, List.getElem?_eq_none (by rw [e2.rows.len]; exact hl)]
          obtain ⟨q, m2, k1, k2⟩ := e2.append A hs1.cur
          have hl0 : 0 < as.length := by
            have := (List.getElem?_eq_some_iff.1 hs.first).1
            omega
          have hs2 : SameTable { T with numRows := T.numRows + 1 } (appendRow t1) (as ++ [q]) := by
            refine ⟨by rw [List.getElem?_append_left hl0]; exact hs.first, ?_, hs1.curCol, hs1.numCols, by simp [appendRow, hs1.numRows],
              hs1.colBorder, hs1.colCounter, hs1.hAligns, hs1.vAligns⟩
            show (as ++ [q])[t1.curRow]? = _
            rw [List.getElem?_append_left (List.getElem?_eq_some_iff.1 hs1.cur).1]
            exact hs1.cur
          simp only [k1, Res.bind_ok]
          refine spanRows_spec hc hc' n (i + 1) hs2 k2 ?_ ?_
          · rw [List.getElem?_append_left (List.getElem?_eq_some_iff.1 hb).1]
            exact hb
          · have h1 := (List.getElem?_eq_some_iff.1 ha).1
            have h2 := e2.rows.len
            have h3 : r0 + (i + 1) = as.length := by omega
            rw [h3, List.getElem?_append_right (Nat.le_refl _), Nat.sub_self]
            rfl
        · rw [if_neg (fun e => hl e.2)]
          have hl' : r0 + i + 1 < as.length := by rw [e2.rows.len]; omega
          rw [List.getElem?_eq_getElem hl']
          exact spanRows_spec hc hc' n (i + 1) hs1 e2 hb (List.getElem?_eq_getElem hl')
    · simp only [if_true]
      exact ⟨T, m1, as, rfl, rfl, hs1, e2⟩

theorem setSpan_spec (hs : SameTable T t as) (h : Held base T.addr m t as own lost) {x y : Nat} (he : setSpan x y t = .ok t') :
    Done base T.addr own lost t' (setSpanAt A x y T m) := by
  unfold setSpan at he
  simp only at he
  split at he
  · cases he
  · rename_i hn
    cases he
    simp only [not_or] at hn
    obtain ⟨n1, n2, n3, n4, n5⟩ := hn
    have hx : t.curCol < maxCols := by omega
    have hr : t.curRow < t.numRows := by rw [← h.rows.len]; exact (List.getElem?_eq_some_iff.1 hs.cur).1
    obtain ⟨r, g1, g2, g3, g4, g5, g6⟩ := h.rows.load hs.cur
    obtain ⟨m', e1, e2⟩ := h.changeCell hs.cur (k := t.curCol) hx (fm := fun c => { c with spanX := x, spanY := y })
      (ft := fun c => { c with spanX := x, spanY := y }) rfl (fun p hp' => h.rows.kin _ _ p hr hx hp') (fun hs' => hs')
    have hd := spanRows_spec A (r0 := t.curRow) (b := T.cur) (c := t.curCol) (spanX := x) (by omega) hx y 0 (a := T.cur)
      (T := { T with curCol := t.curCol, numCols := max (t.curCol + x) t.numCols }) (m := m') (as := as) (base := base) (own := own) (lost := lost)
      (t := { setCell t (t.curRow, t.curCol) fun c => { c with spanX := x, spanY := y } with numCols := max (t.curCol + x) t.numCols })
      ⟨hs.first, hs.cur, rfl, rfl, hs.numRows, hs.colBorder, hs.colCounter, hs.hAligns, hs.vAligns⟩
      (e2.congr rfl rfl rfl rfl) hs.cur hs.cur
    unfold setSpanAt
    rw [hs.curCol, hs.numCols, if_neg (by simp only [not_or]; exact ⟨n1, n2, n3⟩)]
    simp only [g2, Res.bind_ok, g6 t.curCol hx, rehome]
    rw [if_neg (by simp only [not_or]; exact ⟨n4, n5⟩)]
    simp only [e1, Res.bind_ok]
    exact hd

/-! ### Texts -/

theorem addText_spec (hs : SameTable T t as) (h : Held base T.addr m t as own lost) {text : Option Str} {o : Option Nat} {lost' : List Nat}
    (ho : ∀ q, o = some q → q ∈ lost) (hl : ∀ q, q ∈ lost' ↔ (q ∈ lost ∧ o ≠ some q) ∨ own (t.curRow, t.curCol) = some q)
    (he : addText text t = .ok t') :
    ∃ T' m' as' own', addTextAt text o T m = .ok (T', m') ∧ T'.addr = T.addr ∧ SameTable T' t' as' ∧ Held base T.addr m' t' as' own' lost' := by
  unfold addText at he
  unfold addTextAt
  split at he
  · cases he
  · rename_i hx
    obtain ⟨w, hw, he⟩ := Res.bind_eq_ok.1 he
    cases he
    obtain ⟨m', r, e1, e2, e3, e4⟩ := h.putText hs.cur (k := t.curCol) (by omega)
      (f := fun c => { c with isSet := true, text := text, height := textHeight text, width := w }) (fun _ => rfl) (fun _ => rfl)
      (fun _ => rfl) ho hl
    rw [hs.curCol, if_neg hx]
    refine ⟨{ T with
      numCols := if T.numCols ≤ t.curCol then t.curCol + 1 else T.numCols
      curCol := skipSetAt r.cells (maxCols - t.curCol) t.curCol }, m', as, _, ?_, rfl, ?_, e4.congr rfl rfl rfl rfl⟩
    · simp only [hw, Res.bind_ok, e1, e2]
      rfl
    · exact ⟨hs.first, hs.cur, skipSetAt_eq e3 _ _ (by omega), by rw [hs.numCols], hs.numRows, hs.colBorder, hs.colCounter, hs.hAligns,
        hs.vAligns⟩

theorem add_spec (hs : SameTable T t as) (h : Held base T.addr m t as own lost) {text : Option Str} {b : Bool} (he : addText text t = .ok t') :
    ∃ T' m' as' own', addAt A text b T m = .ok (T', m') ∧ T'.addr = T.addr ∧ SameTable T' t' as' ∧
      Held base T.addr m' t' as' own' ((own (t.curRow, t.curCol)).toList ++ lost) := by
  unfold addAt
  cases b
  · simp only [Bool.false_eq_true, if_false]
    refine addText_spec hs h (fun q hq => by cases hq) (fun q => ?_) he
    simp only [List.mem_append, Option.mem_toList, ne_eq, reduceCtorEq, not_false_eq_true, and_true]
    exact Or.comm
  · simp only [if_true]
    obtain ⟨h1, h2⟩ := h.text A
    refine addText_spec hs h1 (fun q hq => by cases hq; exact List.mem_cons_self) (fun q => ?_) he
    simp only [List.mem_append, Option.mem_toList, List.mem_cons, ne_eq, Option.some.injEq]
    constructor
    · rintro (e | e)
      · exact .inr e
      · exact .inl ⟨.inr e, by rintro rfl; exact h2 e⟩
    · rintro (⟨rfl | e, e2⟩ | e)
      · exact absurd rfl e2
      · exact .inr e
      · exact .inl e

theorem callAt_spec (b : Bool) {c : Call} (h : TableIn base T m t lost) (he : call c t = .ok t') :
    ∃ T' m' more, callAt A b c T m = .ok (T', m') ∧ T'.addr = T.addr ∧ TableIn base T' m' t' (more ++ lost) ∧
      ((∀ s, c = .add s → t.curCol < maxCols → (t.cell (t.curRow, t.curCol)).isSet = false) → more = []) := by
  obtain ⟨as, own, hs, hr, ha⟩ := h
  have hh : Held base T.addr m t as own lost := ⟨hr, ha⟩
  have done : ∀ {r : Res (MTable × TMem)}, Done base T.addr own lost t' r →
      ∃ T' m' more, r = .ok (T', m') ∧ T'.addr = T.addr ∧ TableIn base T' m' t' (more ++ lost) ∧
        ((∀ s, c = .add s → t.curCol < maxCols → (t.cell (t.curRow, t.curCol)).isSet = false) → more = []) := by
    rintro r ⟨T', m', as', e1, e2, e3, e4⟩
    exact ⟨T', m', [], e1, e2, ⟨as', own, e3, e4.rows, by rw [e2]; exact e4.apart⟩, fun _ => rfl⟩
  cases c with
  | setPosition x y => exact done (setPosition_spec A hs hh he)
  | nextRow => cases he; exact done (nextRow_spec A hs hh)
  | add s =>
    obtain ⟨T', m', as', own', e1, e2, e3, e4⟩ := add_spec A hs hh (b := b) he
    refine ⟨T', m', _, e1, e2, ⟨as', own', e3, e4.rows, by rw [e2]; exact e4.apart⟩, fun hu => ?_⟩
    cases ho : own (t.curRow, t.curCol) with
    | none => rfl
    | some q =>
      obtain ⟨-, h1, this⟩ := hr.mine _ _ q ho
      rw [hu s rfl h1] at this
      cases this
  | setAligns x y =>
    simp only [call, setAligns] at he
    refine done ?_
    unfold callAt
    split at he
    · cases he
    · rename_i hx
      cases he
      refine ⟨{ T with hAligns := fun i => x[i]?.getD (T.hAligns i), vAligns := fun i => y[i]?.getD (T.vAligns i) }, m, as,
        by simp only [if_neg hx], rfl, ?_, hh.congr rfl rfl rfl rfl⟩
      exact ⟨hs.first, hs.cur, hs.curCol, hs.numCols, hs.numRows, hs.colBorder, hs.colCounter, by simp only [hs.hAligns],
        by simp only [hs.vAligns]⟩
  | overrideH a =>
    exact done (onCurrent_spec (f := fun c => { c with hAlign := some a }) hs hh (fun _ => rfl) (fun _ => rfl) (fun _ => rfl) he)
  | overrideV a =>
    exact done (onCurrent_spec (f := fun c => { c with vAlign := some a }) hs hh (fun _ => rfl) (fun _ => rfl) (fun _ => rfl) he)
  | overrideHRow a =>
    cases he
    exact done (onRow_spec (f := fun c => { c with hAlign := some a }) hs hh (fun _ => rfl) (fun _ => rfl) (fun _ => rfl))
  | overrideVRow a =>
    cases he
    exact done (onRow_spec (f := fun c => { c with vAlign := some a }) hs hh (fun _ => rfl) (fun _ => rfl) (fun _ => rfl))
  | setHline s => cases he; exact done (setHline_spec hs hh s)
  | setVline i s =>
    obtain ⟨T', e1, e2, e3, e4, e5, e6, e7⟩ := setVline_spec hs he
    exact done ⟨T', m, as, by simp only [callAt, e1, Res.bind_ok]; rfl, e2, e3, hh.congr e4 e5 e6 e7⟩
  | makeBoxed s => exact done (makeBoxed_spec A hs hh he)
  | setAllVlines s =>
    obtain ⟨T', e1, e2, e3, e4, e5, e6, e7⟩ := vlines_spec _ 1 hs he
    exact done ⟨T', m, as, by simp only [callAt, hs.numCols, e1, Res.bind_ok]; rfl, e2, e3, hh.congr e4 e5 e6 e7⟩
  | overrideLeft s =>
    obtain ⟨T', m', e⟩ := overrideLeft_kept hs hh he
    exact done ⟨T', m', as, e⟩
  | overrideAbove s =>
    obtain ⟨T', m', e⟩ := overrideAbove_kept hs hh he
    exact done ⟨T', m', as, e⟩
  | setSpan x y => exact done (setSpan_spec A hs hh he)

/-! ### Calls that fail -/

/-- Both fail in the same way. -/
def Alike {α β : Type} (r : Res α) (s : Res β) : Prop := (r = .defect ∧ s = .defect) ∨ (r = .ub ∧ s = .ub)

theorem Alike.of {α β : Type} {r : Res α} {s : Res β} (h : ∀ a, r ≠ .ok a) (hd : r = .defect → s = .defect) (hu : r = .ub → s = .ub) :
    Alike r s := by
  cases r with
  | ok a => exact absurd rfl (h a)
  | defect => exact .inl ⟨rfl, hd rfl⟩
  | ub => exact .inr ⟨rfl, hu rfl⟩

theorem Alike.bind {α β γ δ : Type} {r : Res α} {s : Res β} (f : α → Res γ) (g : β → Res δ) (h : Alike r s) : Alike (r >>= f) (s >>= g) := by
  rcases h with ⟨rfl, rfl⟩ | ⟨rfl, rfl⟩
  · exact .inl ⟨rfl, rfl⟩
  · exact .inr ⟨rfl, rfl⟩

theorem setPosition_fails {x y : Nat} (h : ∀ t', setPosition x y t ≠ .ok t') : Alike (setPosition x y t) (setPositionAt A x y T m) := by
  unfold setPosition at h ⊢
  unfold setPositionAt
  by_cases hx : maxCols ≤ x
  · rw [if_pos hx, if_pos hx]
    exact .inl ⟨rfl, rfl⟩
  · rw [if_neg hx] at h
    exact absurd rfl (h _)

theorem setVline_fails {i : Nat} {s : Border} (h : ∀ t', setVline i s t ≠ .ok t') : Alike (setVline i s t) (setVlineAt i s T) := by
  unfold setVline at h ⊢
  unfold setVlineAt
  by_cases hx : maxCols ≤ i
  · rw [if_pos hx, if_pos hx]
    exact .inl ⟨rfl, rfl⟩
  · rw [if_neg hx] at h
    exact absurd rfl (h _)

theorem vlines_fails {s : Border} : ∀ (n i : Nat) {T : MTable} {t : Table}, SameTable T t as → (∀ t', vlinesLoop s n i t ≠ .ok t') →
    Alike (vlinesLoop s n i t) (vlinesAt s n i T)
  | 0, i, T, t, _, h => absurd rfl (h t)
  | n + 1, i, T, t, hs, h => by
    unfold vlinesLoop at h ⊢
    unfold vlinesAt
    by_cases h1 : ∃ t1, setVline i s t = .ok t1
    · obtain ⟨t1, h1⟩ := h1
      obtain ⟨T1, e1, -, e3, -⟩ := setVline_spec hs h1
      rw [h1] at h ⊢
      rw [e1]
      exact vlines_fails n (i + 1) e3 h
    · exact (setVline_fails fun t' ht => h1 ⟨t', ht⟩).bind _ _

theorem makeBoxed_fails (hs : SameTable T t as) (h : Held base T.addr m t as own lost) {s : Border} (he : ∀ t', makeBoxed s t ≠ .ok t') :
    Alike (makeBoxed s t) (makeBoxedAt A s T m) := by
  unfold makeBoxed at he ⊢
  unfold makeBoxedAt
  by_cases h1 : ∃ t1, setPosition 0 0 t = .ok t1
  · obtain ⟨t1, h1⟩ := h1
    obtain ⟨T1, m1, as1, e1, a1, s1, k1⟩ := setPosition_spec A hs h h1
    rw [h1] at he ⊢
    rw [e1]
    simp only [Res.bind_ok] at he ⊢
    by_cases h2 : ∃ t2, setVline 0 s t1 = .ok t2
    · obtain ⟨t2, h2⟩ := h2
      obtain ⟨T2, e2, a2, s2, q1, q2, q3, q4⟩ := setVline_spec s1 h2
      have a2' := a2.trans a1
      obtain ⟨T3, m3, as3, e3, a3, s3, k3⟩ := setHline_spec (m := m1) (own := own) (lost := lost) (base := base) s2
        (by rw [a2']; exact k1.congr q1 q2 q3 q4) s
      rw [h2] at he ⊢
      rw [e2]
      simp only [Res.bind_ok, e3, s3.numCols, s3.numRows] at he ⊢
      by_cases h3 : ∃ t3, setPosition (setHline s t2).numCols ((setHline s t2).numRows - 1) (setHline s t2) = .ok t3
      · obtain ⟨t3, h3⟩ := h3
        obtain ⟨T4, m4, as4, e4, a4, s4, k4⟩ := setPosition_spec A s3 (by rw [a3]; exact k3) h3
        rw [h3] at he ⊢
        rw [e4]
        simp only [Res.bind_ok, s4.numCols] at he ⊢
        by_cases h4 : ∃ t4, setVline t3.numCols s t3 = .ok t4
        · obtain ⟨t4, h4⟩ := h4
          rw [h4] at he
          exact absurd rfl (he _)
        · exact (setVline_fails fun t' ht => h4 ⟨t', ht⟩).bind _ _
      · exact (setPosition_fails A fun t' ht => h3 ⟨t', ht⟩).bind _ _
    · exact (setVline_fails fun t' ht => h2 ⟨t', ht⟩).bind _ _
  · exact (setPosition_fails A fun t' ht => h1 ⟨t', ht⟩).bind _ _

theorem onCurrent_fails (hs : SameTable T t as) {f g : Cell → Cell} (h : ∀ t', onCurrent f t ≠ .ok t') :
    Alike (onCurrent f t) (onCurrentAt g T m) := by
  unfold onCurrent at h ⊢
  unfold onCurrentAt
  rw [hs.curCol]
  by_cases hx : maxCols ≤ t.curCol
  · rw [if_pos hx, if_pos hx]
    exact .inr ⟨rfl, rfl⟩
  · rw [if_neg hx] at h
    exact absurd rfl (h _)

theorem addText_fails (hs : SameTable T t as) {text : Option Str} {o : Option Nat} (h : ∀ t', addText text t ≠ .ok t') :
    Alike (addText text t) (addTextAt text o T m) := by
  unfold addText at h ⊢
  unfold addTextAt
  rw [hs.curCol]
  by_cases hx : maxCols ≤ t.curCol
  · rw [if_pos hx, if_pos hx]
    exact .inr ⟨rfl, rfl⟩
  · rw [if_neg hx] at h ⊢
    rw [if_neg hx]
    cases hw : textWidth text with
    | ok w =>
      rw [hw] at h
      exact absurd rfl (h _)
    | defect => exact .inl ⟨rfl, rfl⟩
    | ub => exact .inr ⟨rfl, rfl⟩

theorem callAt_fails (b : Bool) {c : Call} (h : TableIn base T m t lost) (he : ∀ t', call c t ≠ .ok t') :
    Alike (call c t) (callAt A b c T m) := by
  obtain ⟨as, own, hs, hr, ha⟩ := h
  have hh : Held base T.addr m t as own lost := ⟨hr, ha⟩
  cases c with
  | setPosition x y => exact setPosition_fails A he
  | nextRow => exact absurd rfl (he _)
  | add s =>
    cases b
    · exact addText_fails hs he
    · exact addText_fails hs he
  | setAligns x y =>
    simp only [call, setAligns] at he ⊢
    simp only [callAt]
    by_cases hx : maxCols < x.length ∨ maxCols < y.length
    · rw [if_pos hx, if_pos hx]
      exact .inl ⟨rfl, rfl⟩
    · rw [if_neg hx] at he
      exact absurd rfl (he _)
  | overrideH a => exact onCurrent_fails (g := fun c => { c with hAlign := some a }) (m := m) hs he
  | overrideV a => exact onCurrent_fails (g := fun c => { c with vAlign := some a }) (m := m) hs he
  | overrideHRow a => exact absurd rfl (he _)
  | overrideVRow a => exact absurd rfl (he _)
  | setHline s => exact absurd rfl (he _)
  | setVline i s =>
    rcases setVline_fails (T := T) he with ⟨e1, e2⟩ | ⟨e1, e2⟩
    · exact .inl ⟨e1, by simp only [callAt, e2]; rfl⟩
    · exact .inr ⟨e1, by simp only [callAt, e2]; rfl⟩
  | makeBoxed s => exact makeBoxed_fails A hs hh he
  | setAllVlines s =>
    rcases vlines_fails _ 1 hs he with ⟨e1, e2⟩ | ⟨e1, e2⟩
    · exact .inl ⟨e1, by simp only [callAt, hs.numCols, e2]; rfl⟩
    · exact .inr ⟨e1, by simp only [callAt, hs.numCols, e2]; rfl⟩
  | overrideLeft s =>
    simp only [call, overrideLeft] at he ⊢
    simp only [callAt, overrideLeftAt]
    rw [hs.curCol]
    by_cases hx : maxCols ≤ t.curCol
    · rw [if_pos hx, if_pos hx]
      exact .inr ⟨rfl, rfl⟩
    · rw [if_neg hx] at he
      exact absurd rfl (he _)
  | overrideAbove s =>
    simp only [call, overrideAbove] at he ⊢
    simp only [callAt, overrideAboveAt]
    rw [hs.curCol]
    by_cases hx : maxCols ≤ t.curCol
    · rw [if_pos hx, if_pos hx]
      exact .inr ⟨rfl, rfl⟩
    · rw [if_neg hx] at he
      exact absurd rfl (he _)
  | setSpan x y =>
    simp only [call, setSpan] at he ⊢
    simp only [callAt, setSpanAt]
    rw [hs.curCol, hs.numCols]
    split at he
    · rename_i hx
      rw [if_pos hx]
      refine .inl ⟨rfl, ?_⟩
      by_cases hy : x = 0 ∨ y = 0 ∨ maxCols < t.curCol + x
      · rw [if_pos hy]
      · rw [if_neg hy]
        have hy' : (t.cell (t.curRow, t.curCol)).spanX ≠ 1 ∨ (t.cell (t.curRow, t.curCol)).spanY ≠ 1 := by tauto
        obtain ⟨r, g1, g2, g3, g4, g5, g6⟩ := hr.load hs.cur
        simp only [g2, Res.bind_ok, g6 t.curCol (by omega), rehome]
        rw [if_pos hy']
    · exact absurd rfl (he _)

theorem callsAt_fails : ∀ (cs : List (Call × Bool)) {T : MTable} {m : TMem} {t : Table} {lost : List Nat}, TableIn base T m t lost →
    (∀ t', calls (cs.map (·.1)) t ≠ .ok t') → Alike (calls (cs.map (·.1)) t) (callsAt A cs T m)
  | [], T, m, t, lost, h, he => absurd rfl (he t)
  | c :: cs, T, m, t, lost, h, he => by
    rw [List.map_cons, calls] at he ⊢
    rw [callsAt]
    by_cases h1 : ∃ t1, call c.1 t = .ok t1
    · obtain ⟨t1, h1⟩ := h1
      obtain ⟨T1, m1, more1, e1, e2, e3, e4⟩ := callAt_spec A c.2 h h1
      rw [h1] at he ⊢
      rw [e1]
      exact callsAt_fails cs e3 he
    · exact (callAt_fails A c.2 h fun t' ht => h1 ⟨t', ht⟩).bind _ _

theorem callsAt_spec : ∀ (cs : List (Call × Bool)) {T : MTable} {m : TMem} {t t' : Table} {lost : List Nat}, TableIn base T m t lost →
    calls (cs.map (·.1)) t = .ok t' →
    ∃ T' m' more, callsAt A cs T m = .ok (T', m') ∧ T'.addr = T.addr ∧ TableIn base T' m' t' (more ++ lost) ∧
      (Careful (cs.map (·.1)) t → more = [])
  | [], T, m, t, t', lost, h, he => by
    cases he
    exact ⟨T, m, [], rfl, rfl, h, fun _ => rfl⟩
  | c :: cs, T, m, t, t', lost, h, he => by
    obtain ⟨t1, h1, h2⟩ := Res.bind_eq_ok.1 he
    obtain ⟨T1, m1, more1, e1, e2, e3, e4⟩ := callAt_spec A c.2 h h1
    obtain ⟨T2, m2, more2, f1, f2, f3, f4⟩ := callsAt_spec cs e3 h2
    refine ⟨T2, m2, more2 ++ more1, by simp only [callsAt, e1, Res.bind_ok, f1], f2.trans e2, by rw [List.append_assoc]; exact f3, fun hc => ?_⟩
    rw [f4 (hc.2 t1 h1), e4 hc.1]
    rfl

/-! ## Printing -/

theorem dropAbove_spec : ∀ (n r : Nat) {k : Nat} {T : MTable} {t t' : Table} {m : TMem} {as : List Nat}, SameTable T t as →
    Held base T.addr m t as own lost → r + n = t.numRows → n ≤ k → dropAbove n r t = .ok t' →
    ∃ T' m', dropAboveAt k as[r]? T m = .ok (T', m') ∧ T'.addr = T.addr ∧ SameTable T' t' as ∧ Held base T.addr m' t' as own lost
  | 0, r, k, T, t, t', m, as, hs, h, hn, hk, he => by
    cases he
    rw [List.getElem?_eq_none (by rw [h.rows.len]; omega)]
    exact ⟨T, m, by cases k <;> rfl, rfl, hs, h⟩
  | n + 1, r, k, T, t, t', m, as, hs, h, hn, hk, he => by
    obtain ⟨k, rfl⟩ : ∃ l, k = l + 1 := ⟨k - 1, by omega⟩
    obtain ⟨t1, h1, h2⟩ := Res.bind_eq_ok.1 he
    have hl : r < as.length := by rw [h.rows.len]; omega
    have ha : as[r]? = some as[r] := List.getElem?_eq_getElem hl
    generalize as[r] = a at ha
    obtain ⟨T1, m1, e1, e2, e3, e4⟩ := overrideAbove_kept (T := { T with cur := a }) (t := { t with curRow := r }) (m := m) (base := base)
      (own := own) (lost := lost) ⟨hs.first, ha, hs.curCol, hs.numCols, hs.numRows, hs.colBorder, hs.colCounter, hs.hAligns, hs.vAligns⟩
      (h.congr rfl rfl rfl rfl) h1
    obtain ⟨x, g1, g2, g3, -⟩ := e4.rows.load ha
    have hrows : t1.numRows = t.numRows := by rw [← e4.rows.len, h.rows.len]
    obtain ⟨T2, m2, f1, f2, f3, f4⟩ := dropAbove_spec n (r + 1) (k := k) e3 (by rw [e2]; exact e4) (by omega) (by omega) h2
    rw [e2] at f4
    exact ⟨T2, m2, by rw [ha, dropAboveAt]; simp only [e1, Res.bind_ok, g2, g3, f1], f2.trans e2, f3, f4⟩

theorem dropLeft_spec : ∀ (n k : Nat) {T : MTable} {t t' : Table} {m : TMem}, SameTable T t as →
    Held base T.addr m t as own lost → dropLeft n k t = .ok t' →
    ∃ T' m', dropLeftAt n k T m = .ok (T', m') ∧ T'.addr = T.addr ∧ SameTable T' t' as ∧ Held base T.addr m' t' as own lost
  | 0, k, T, t, t', m, hs, h, he => by
    cases he
    exact ⟨T, m, rfl, rfl, hs, h⟩
  | n + 1, k, T, t, t', m, hs, h, he => by
    obtain ⟨t1, h1, h2⟩ := Res.bind_eq_ok.1 he
    obtain ⟨T1, m1, e1, e2, e3, e4⟩ := overrideLeft_kept (T := { T with curCol := k }) (t := { t with curCol := k }) (m := m) (base := base)
      (own := own) (lost := lost) ⟨hs.first, hs.cur, rfl, hs.numCols, hs.numRows, hs.colBorder, hs.colCounter, hs.hAligns, hs.vAligns⟩
      (h.congr rfl rfl rfl rfl) h1
    obtain ⟨T2, m2, f1, f2, f3, f4⟩ := dropLeft_spec n (k + 1) e3 (by rw [e2]; exact e4) h2
    rw [e2] at f4
    exact ⟨T2, m2, by rw [dropLeftAt]; simp only [e1, Res.bind_ok, f1], f2.trans e2, f3, f4⟩

theorem dropLines_spec {w h : Nat} (hh : TableIn base T m t lost) (he : dropLines w h t = .ok t') :
    ∃ T' m', dropLinesAt w h T m = .ok (T', m') ∧ T'.addr = T.addr ∧ TableIn base T' m' t' lost := by
  obtain ⟨as, own, hs, hr, ha⟩ := hh
  have hsplit : ∃ t1, (if w = 0 then dropAbove t.numRows 0 { t with curCol := t.numCols - 1 } else .ok { t with curRow := t.numRows - 1 })
      = .ok t1 ∧ (if h = 0 then dropLeft t1.numCols 0 t1 else .ok t1) = .ok t' := by
    unfold dropLines at he
    by_cases hw : w = 0
    · rw [if_pos hw] at he ⊢
      exact Res.bind_eq_ok.1 he
    · rw [if_neg hw] at he ⊢
      exact ⟨_, rfl, he⟩
  obtain ⟨t1, h1, h2⟩ := hsplit
  have hall : ∀ a ∈ as, m.get a ≠ none := fun a h1 => by
    obtain ⟨-, r, hr⟩ := ha.rows a h1
    rw [hr]
    exact Option.some_ne_none _
  have hlen := TMem.length_le ha.nodup hall
  have first : ∃ T1 m1, dropColumnAt w T m = .ok (T1, m1) ∧ T1.addr = T.addr ∧ SameTable T1 t1 as ∧ Held base T.addr m1 t1 as own lost := by
    unfold dropColumnAt
    by_cases hw : w = 0
    · rw [if_pos hw] at h1 ⊢
      rw [← hs.first]
      exact dropAbove_spec (base := base) (own := own) (lost := lost) t.numRows 0 (T := { T with curCol := T.numCols - 1 }) (m := m)
        (t := { t with curCol := t.numCols - 1 })
        ⟨hs.first, hs.cur, by rw [hs.numCols], hs.numCols, hs.numRows, hs.colBorder, hs.colCounter, hs.hAligns, hs.vAligns⟩
        ⟨hr.congr rfl rfl rfl rfl, ha⟩ (by simp) (by rw [← hr.len]; exact hlen) h1
    · rw [if_neg hw] at h1 ⊢
      cases h1
      obtain ⟨l, e1, e2⟩ := hr.lastRow m.blocks.length hs.first (by omega)
      refine ⟨{ T with cur := l }, m, by simp only [toLastAt, e1, Res.bind_ok]; rfl, rfl, ?_, ⟨hr.congr rfl rfl rfl rfl, ha⟩⟩
      exact ⟨hs.first, by rw [← hr.len]; exact e2, hs.curCol, hs.numCols, hs.numRows, hs.colBorder, hs.colCounter, hs.hAligns, hs.vAligns⟩
  obtain ⟨T1, m1, e1, e2, e3, e4⟩ := first
  unfold dropLinesAt
  rw [e1]
  simp only [Res.bind_ok]
  by_cases hh : h = 0
  · rw [if_pos hh] at h2 ⊢
    rw [e3.numCols]
    obtain ⟨T2, m2, f1, f2, f3, f4⟩ := dropLeft_spec (base := base) (own := own) (lost := lost) _ 0 e3 (by rw [e2]; exact e4) h2
    exact ⟨T2, m2, f1, f2.trans e2, as, own, f3, f4.rows, by rw [f2]; exact f4.apart⟩
  · rw [if_neg hh] at h2 ⊢
    cases h2
    exact ⟨T1, m1, rfl, e2, as, own, e3, e4.rows, by rw [e2]; exact e4.apart⟩

/-! ## A new table -/

theorem emptyAt_spec (m : TMem) : TableIn m.get (emptyAt A m).1 (emptyAt A m).2 empty [] := by
  have f1 := TMem.alloc_fresh A m .table
  have g1 := TMem.get_alloc A m .table
  unfold emptyAt
  generalize m.alloc A .table = al at f1 g1 ⊢
  obtain ⟨p, m1⟩ := al
  simp only at f1 g1 ⊢
  have f2 := TMem.alloc_fresh A m1 (.row emptyRow)
  have g2 := TMem.get_alloc A m1 (.row emptyRow)
  generalize m1.alloc A (.row emptyRow) = al at f2 g2 ⊢
  obtain ⟨q, m2⟩ := al
  simp only at f2 g2 ⊢
  have hpq : p ≠ q := by rintro rfl; rw [g1, if_pos rfl] at f2; cases f2
  have hq : m.get q = none := by rw [g1, if_neg (Ne.symm hpq)] at f2; exact f2
  refine ⟨[q], fun _ => none, ⟨rfl, rfl, rfl, rfl, rfl, rfl, rfl, rfl, rfl⟩, ⟨rfl, fun i a ha => ?_, fun i j p _ _ hp => (by cases hp),
    fun _ _ _ hq => (by cases hq)⟩, ⟨?_, f1, List.nodup_singleton q, fun a ha => ?_, fun _ _ hq => (by cases hq), fun _ _ _ hq => (by cases hq),
    fun _ hq => (by cases hq), fun x h1 h2 _ _ => ?_⟩⟩
  · cases i with
    | zero =>
      cases ha
      exact ⟨emptyRow, by rw [g2, if_pos rfl], rfl, rfl, rfl, fun _ _ => rfl⟩
    | succ i => simp at ha
  · rw [g2, if_neg hpq, g1, if_pos rfl]
  · rw [List.mem_singleton] at ha
    subst ha
    exact ⟨hq, emptyRow, by rw [g2, if_pos rfl]⟩
  · rw [g2, if_neg (by simpa using h2), g1, if_neg h1]

/-! ## Calls that put no text into a set cell -/

theorem careful_of_order : ∀ {cs : List Call} {t : Table} {ps ss}, Onward cs → Order t ps ss → Inside t → Careful cs t
  | [], _, _, _, _, _, _ => trivial
  | c :: cs, t, ps, ss, hf, ho, hi => by
    refine ⟨fun _ _ => ho.free, fun t' he => ?_⟩
    obtain ⟨ps', h'⟩ := ho.call hi (hf c List.mem_cons_self) he
    exact careful_of_order (fun d hd => hf d (List.mem_cons_of_mem _ hd)) h' (hi.call he)

theorem careful_of_onward {cs : List Call} (h : Onward cs) : Careful cs empty := careful_of_order h Order.empty Inside.empty

/-! ## Freeing -/

/-- What is known of the columns. -/
structure InCols (t : Table) : Prop where
  cols : t.numCols ≤ maxCols
  cell : ∀ p, p.1 < t.numRows → p.2 < maxCols → (t.cell p).isSet = true → p.2 < t.numCols

theorem InCols.of {t : Table} (h : Inside t) : InCols t := ⟨h.cols, fun p h1 h2 => (h.cell p h1 h2).2.2.2⟩


theorem freeTexts_spec {cells : Nat → MCell} : ∀ (n j : Nat) {m : TMem}, j + n ≤ maxCols →
    (∀ k p, j ≤ k → k < j + n → (cells k).own = some p → m.get p ≠ none) →
    (∀ k l p, k < maxCols → l < maxCols → (cells k).own = some p → (cells l).own = some p → k = l) →
    ∃ m', freeTexts cells n j m = .ok m' ∧ (∀ k q, j ≤ k → k < j + n → (cells k).own = some q → m'.get q = none) ∧
      ∀ q, (∀ k, j ≤ k → k < j + n → (cells k).own ≠ some q) → m'.get q = m.get q
  | 0, j, m, _, _, _ => ⟨m, rfl, fun k q h1 h2 => absurd h2 (by omega), fun _ _ => rfl⟩
  | n + 1, j, m, hj, hm, hi => by
    unfold freeTexts
    rw [if_neg (by omega)]
    cases ho : (cells j).own with
    | none =>
      obtain ⟨m', e1, e2, e3⟩ := freeTexts_spec n (j + 1) (m := m) (by omega) (fun k p h1 h2 => hm k p (by omega) (by omega)) hi
      refine ⟨m', e1, fun k q h1 h2 hq => ?_, fun q hq => e3 q fun k h1 h2 => hq k (by omega) (by omega)⟩
      by_cases hk : k = j
      · subst hk; rw [ho] at hq; cases hq
      · exact e2 k q (by omega) (by omega) hq
    | some p =>
      have hp := hm j p (by omega) (by omega) ho
      obtain ⟨c, hc⟩ := Option.ne_none_iff_exists'.1 hp
      obtain ⟨m1, f1, f2⟩ := TMem.free_ok hc
      obtain ⟨m', e1, e2, e3⟩ := freeTexts_spec n (j + 1) (m := m1) (by omega) (fun k q h1 h2 hq => by
        rw [f2, if_neg (by rintro rfl; have := hi k j q (by omega) (by omega) hq ho; omega)]
        exact hm k q (by omega) (by omega) hq) hi
      refine ⟨m', by simp only [f1, Res.bind_ok, e1], fun k q h1 h2 hq => ?_, fun q hq => ?_⟩
      · by_cases hk : k = j
        · subst hk
          rw [ho] at hq
          cases hq
          rw [e3 p fun l h3 h4 h5 => by have := hi l k p (by omega) (by omega) h5 ho; omega, f2, if_pos rfl]
        · exact e2 k q (by omega) (by omega) hq
      · rw [e3 q fun k h1 h2 => hq k (by omega) (by omega), f2, if_neg (by rintro rfl; exact hq j (by omega) (by omega) ho)]

variable {addr : Nat}

theorem freeRows_spec (h : Held base addr m t as own lost) (hi : InCols t) : ∀ (n i : Nat) {m1 : TMem}, as.length - i ≤ n →
    (∀ k a, i ≤ k → as[k]? = some a → m1.get a = m.get a) → (∀ x q, i ≤ x.1 → own x = some q → m1.get q = m.get q) →
    ∃ m', freeRows t.numCols n as[i]? m1 = .ok m' ∧ (∀ k q, i ≤ k → as[k]? = some q → m'.get q = none) ∧
      (∀ x q, i ≤ x.1 → own x = some q → m'.get q = none) ∧
      ∀ q, (∀ k, i ≤ k → as[k]? ≠ some q) → (∀ x, i ≤ x.1 → own x ≠ some q) → m'.get q = m1.get q
  | n, i, m1, hn, h1, h2 => by
    by_cases hl : i < as.length
    · obtain ⟨n, rfl⟩ : ∃ k, n = k + 1 := ⟨n - 1, by omega⟩
      have ha : as[i]? = some as[i] := List.getElem?_eq_getElem hl
      generalize as[i] = a at ha
      obtain ⟨r, g1, g2, g3, g4, g5, g6⟩ := h.rows.load ha
      have g1' : m1.get a = some (.row r) := by rw [h1 i a (Nat.le_refl _) ha]; exact g1
      have hrow : m1.row a = .ok r := by simp only [TMem.row, g1']
      have hi' : i < t.numRows := by rw [← h.rows.len]; exact hl
      have hown : ∀ k < maxCols, (r.cells k).own = own (i, k) := fun k hk => by rw [g6 k hk]
      have hcol : ∀ x q, own x = some q → x.2 < t.numCols := fun x q hq => by
        obtain ⟨e1, e2, e3⟩ := h.rows.mine x.1 x.2 q hq
        exact hi.cell x e1 e2 e3
      have hne : ∀ x q (k : Nat) a, own x = some q → as[k]? = some a → q ≠ a := by
        rintro x q k a hq hk rfl
        obtain ⟨r, hr⟩ := (h.apart.rows q (h.mem hk)).2
        rw [(h.apart.text x q hq).1] at hr
        cases hr
      obtain ⟨m2, e1, e2, e3⟩ := freeTexts_spec (cells := r.cells) t.numCols 0 (m := m1) (by have := hi.cols; omega)
        (fun k p _ hk hp => by
          have hk' : k < maxCols := by have := hi.cols; omega
          rw [hown k hk'] at hp
          rw [h2 (i, k) p (Nat.le_refl _) hp, (h.apart.text _ _ hp).1]
          exact Option.some_ne_none _)
        (fun k l p hk hl hp hq => by
          rw [hown k hk] at hp
          rw [hown l hl] at hq
          have := h.apart.inj _ _ _ hp hq
          exact congrArg Prod.snd this)
      have keep : ∀ q, (∀ k, own (i, k) ≠ some q) → m2.get q = m1.get q := fun q hq =>
        e3 q fun k _ hk => by rw [hown k (by have := hi.cols; omega)]; exact hq k
      have f0 : m2.get a = some (.row r) := by
        rw [keep a fun k hk => hne _ _ _ _ hk ha rfl]
        exact g1'
      obtain ⟨m3, f1, f2⟩ := TMem.free_ok f0
      have hfree : freeRow t.numCols a m1 = .ok m3 := by simp only [freeRow, hrow, Res.bind_ok, e1, f1]
      obtain ⟨m', k1, k2, k3, k4⟩ := freeRows_spec h hi n (i + 1) (m1 := m3) (by omega)
        (fun k b hk hb => by
          rw [f2, if_neg (by rintro rfl; have := nodup_index h.apart.nodup ha hb; omega), keep b fun l hl => hne _ _ _ _ hl hb rfl]
          exact h1 k b (by omega) hb)
        (fun x q hx hq => by
          rw [f2, if_neg (hne x q i a hq ha), keep q fun l hl => by have := congrArg Prod.fst (h.apart.inj _ _ _ hl hq); simp only at this; omega]
          exact h2 x q (by omega) hq)
      refine ⟨m', by rw [ha, freeRows]; simp only [hrow, Res.bind_ok, hfree, g3, k1], fun k q hk hq => ?_, fun x q hx hq => ?_, fun q hq1 hq2 => ?_⟩
      · by_cases hki : k = i
        · subst hki
          have : a = q := by rw [ha] at hq; exact Option.some.inj hq
          subst this
          rw [k4 a (fun l hl hla => by have := nodup_index h.apart.nodup ha hla; omega) (fun x _ hx => hne _ _ _ _ hx ha rfl), f2, if_pos rfl]
        · exact k2 k q (by omega) hq
      · by_cases hxi : x.1 = i
        · rw [k4 q (fun l hl hla => hne _ _ _ _ hq hla rfl) (fun y hy hyq => by
            have := congrArg Prod.fst (h.apart.inj _ _ _ hyq hq)
            omega), f2, if_neg (hne x q i a hq ha)]
          refine e2 x.2 q (Nat.zero_le _) (by have := hcol x q hq; omega) ?_
          rw [hown _ (by have := hcol x q hq; have := hi.cols; omega), ← hxi]
          exact hq
        · exact k3 x q (by omega) hq
      · rw [k4 q (fun k hk => hq1 k (by omega)) (fun x hx => hq2 x (by omega)), f2,
          if_neg (by rintro rfl; exact hq1 i (Nat.le_refl _) ha), keep q fun k => hq2 (i, k) (Nat.le_refl _)]
    · rw [List.getElem?_eq_none (by omega)]
      refine ⟨m1, by cases n <;> rfl, fun k q hk hq => ?_, fun x q hx hq => ?_, fun _ _ _ => rfl⟩
      · have := (List.getElem?_eq_some_iff.1 hq).1
        omega
      · have := (h.rows.mine x.1 x.2 q hq).1
        have := h.rows.len
        omega

theorem printAt_spec (h : TableIn base T m t lost) (hi : Inside t) (u v : Nat → Nat) :
    ∃ T' m' t', printAt u v T m = .ok (T', m') ∧ T'.addr = T.addr ∧ TableIn base T' m' t' lost ∧ InCols t' := by
  obtain ⟨as, own, hs, -⟩ := id h
  unfold printAt
  rw [hs.numCols, hs.numRows]
  by_cases h0 : t.numCols = 0
  · rw [if_pos h0]
    exact ⟨T, m, t, rfl, rfl, h, .of hi⟩
  · rw [if_neg h0]
    obtain ⟨t', e, -, -, e3, e4, e5, -⟩ := dropLines_exact hi h0 u v
    obtain ⟨T', m', f1, f2, f3⟩ := dropLines_spec h e
    refine ⟨T', m', t', f1, f2, f3, by rw [e5]; exact hi.cols, fun p h1 h2 h3 => ?_⟩
    rw [e5]
    rw [(e3 p).isSet] at h3
    exact (hi.cell p (by omega) h2).2.2.2 h3

theorem freeTable_spec (h : TableIn base T m t lost) (hi : InCols t) :
    ∃ m', freeTable T m = .ok m' ∧ ∀ q, m'.get q = if q ∈ lost then some .text else base q := by
  obtain ⟨as, own, hs, hr, ha⟩ := h
  have hall : ∀ a ∈ as, m.get a ≠ none := fun a h1 => by
    obtain ⟨-, r, hr⟩ := ha.rows a h1
    rw [hr]
    exact Option.some_ne_none _
  have hlen := TMem.length_le ha.nodup hall
  obtain ⟨m1, e1, e2, e3, e4⟩ := freeRows_spec ⟨hr, ha⟩ hi m.blocks.length 0 (m1 := m) (by omega) (fun _ _ _ _ => rfl) (fun _ _ _ _ => rfl)
  have ht1 : T.addr ∉ as := fun hm => by
    obtain ⟨-, r, hr⟩ := ha.rows _ hm
    rw [ha.table] at hr
    cases hr
  have ht2 : ∀ x, own x ≠ some T.addr := fun x hx => by
    have := (ha.text x _ hx).1
    rw [ha.table] at this
    cases this
  have hidx : ∀ q, q ∉ as → ∀ k, 0 ≤ k → as[k]? ≠ some q := fun q hq k _ hk => hq (List.mem_of_getElem? hk)
  have f0 : m1.get T.addr = some .table := by
    rw [e4 _ (hidx _ ht1) (fun x _ => ht2 x)]
    exact ha.table
  obtain ⟨m2, f1, f2⟩ := TMem.free_ok f0
  rw [hs.first] at e1
  refine ⟨m2, by simp only [freeTable, hs.numCols, e1, Res.bind_ok, f1], fun q => ?_⟩
  rw [f2]
  by_cases hq1 : q = T.addr
  · subst hq1
    rw [if_pos rfl, if_neg (fun hl => by have := (ha.gone _ hl).1; rw [ha.table] at this; cases this), ha.new]
  · rw [if_neg hq1]
    by_cases hq2 : q ∈ as
    · obtain ⟨k, hk⟩ := List.getElem?_of_mem hq2
      obtain ⟨b1, r, b2⟩ := ha.rows q hq2
      rw [e2 k q (Nat.zero_le _) hk, if_neg (fun hl => by have := (ha.gone _ hl).1; rw [b2] at this; cases this), b1]
    · by_cases hq3 : ∃ x, own x = some q
      · obtain ⟨x, hx⟩ := hq3
        rw [e3 x q (Nat.zero_le _) hx, if_neg (fun hl => (ha.gone _ hl).2.2 x hx), (ha.text x q hx).2]
      · have hq3' : ∀ x, own x ≠ some q := fun x hx => hq3 ⟨x, hx⟩
        rw [e4 q (hidx q hq2) (fun x _ => hq3' x)]
        by_cases hq4 : q ∈ lost
        · rw [if_pos hq4, (ha.gone q hq4).1]
        · rw [if_neg hq4, ha.other q hq1 hq2 hq3' hq4]

end

end Verif.LayoutSpec
