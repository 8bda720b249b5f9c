import Verif.Spec.Sequences
import Mathlib.Data.List.Basic
import Mathlib.Order.Lattice
import Mathlib.Tactic.Set

/-!
# Lemmas on vectors and string builders
-/

namespace Verif
variable {α : Type}

@[simp] theorem length_reallocCells (b : List (Option α)) (n : Nat) : (reallocCells b n).length = n := by
  simp only [reallocCells, List.length_append, List.length_take, List.length_replicate]; omega

theorem take_reallocCells (b : List (Option α)) (n k : Nat) (hn : k ≤ n) (hb : k ≤ b.length) :
    (reallocCells b n).take k = b.take k := by
  unfold reallocCells
  rw [List.take_append_of_le_length (by simp; omega), List.take_take, min_eq_left hn]

theorem writeCells_ok (xs : List α) : ∀ (b : List (Option α)) (i : Nat), i + xs.length ≤ b.length →
    writeCells b i xs = .ok (b.take i ++ xs.map some ++ b.drop (i + xs.length)) := by
  induction xs with
  | nil => intro b i _; simp [writeCells]
  | cons x xs ih =>
    intro b i h
    have hi : i < b.length := by simp at h; omega
    have hx : i + 1 + xs.length ≤ (b.set i (some x)).length := by simp at h ⊢; omega
    simp only [writeCells, writeCell, if_pos hi, Res.bind_ok, ih _ _ hx]
    congr 1
    rw [List.take_set, List.take_succ_eq_append_getElem hi, List.set_append_right _ _ (by simp)]
    have : (b.set i (some x)).drop (i + 1 + xs.length) = b.drop (i + 1 + xs.length) := by
      rw [List.drop_set_of_lt (by omega)]
    rw [this]
    simp [Nat.min_eq_left (Nat.le_of_lt hi), List.append_assoc, Nat.add_comm, Nat.add_left_comm]

namespace Vec

theorem le_grow (n : Nat) : n < grow n := by simp only [grow]; omega

theorem le_growTo (needed size : Nat) : needed ≤ growTo needed size ∧ size ≤ growTo needed size := by
  fun_induction growTo needed size with
  | case1 size h => exact ⟨h, le_rfl⟩
  | case2 size h ih => exact ⟨ih.1, (Nat.le_of_lt (le_grow size)).trans ih.2⟩

theorem growTo_le (needed size : Nat) : growTo needed size ≤ max size (needed + needed / 2) := by
  fun_induction growTo needed size with
  | case1 size h => exact le_max_left _ _
  | case2 size h ih =>
    refine ih.trans ?_
    simp only [grow]
    omega

/-- The vector holds the sequence `l` and knows its allocated size (`size` cells at
least). -/
structure Rep (v : Vec α) (l : List α) : Prop where
  count : v.count = l.length
  room : v.count ≤ v.size
  size : v.size ≤ v.buffer.length
  cells : v.buffer.take v.count = l.map some

theorem Rep.get {v : Vec α} {l : List α} (h : Rep v l) (i : Nat) (hi : i < l.length) : v.get i = .ok l[i] := by
  have h1 : v.buffer[i]? = (v.buffer.take v.count)[i]? := by
    rw [List.getElem?_take_of_lt (by rw [h.count]; exact hi)]
  simp only [Vec.get, readCell, h1, h.cells, List.getElem?_map, List.getElem?_eq_getElem hi, Option.map_some]

theorem Rep.create (n : Nat) : Rep (create n : Vec α) [] := ⟨rfl, by simp [Vec.create], by simp [Vec.create], by simp [Vec.create]⟩

theorem Rep.ensure {v : Vec α} {l : List α} (h : Rep v l) (n : Nat) :
    Rep (v.ensure n) l ∧ n ≤ (v.ensure n).size ∧ (v.ensure n).size = (v.ensure n).buffer.length := by
  obtain ⟨h1, h2⟩ := le_growTo n v.size
  have hr := h.room
  have hs := h.size
  refine ⟨⟨h.count, hr.trans h2, by simp [Vec.ensure], ?_⟩, h1, by simp [Vec.ensure]⟩
  simp only [Vec.ensure]
  rw [take_reallocCells _ _ _ (hr.trans h2) (hr.trans hs), h.cells]

theorem Rep.pushMany {v : Vec α} {l : List α} (h : Rep v l) (xs : List α) :
    ∃ w, v.pushMany xs = .ok w ∧ Rep w (l ++ xs) ∧ w.size = w.buffer.length := by
  obtain ⟨hw, hn, hs⟩ := h.ensure (v.count + xs.length)
  have hc : (v.ensure (v.count + xs.length)).count = v.count := rfl
  have hb : (v.ensure (v.count + xs.length)).count + xs.length ≤ (v.ensure (v.count + xs.length)).buffer.length := by
    rw [← hs, hc]; exact hn
  have e0 := (show v.pushMany xs = _ by simp only [Vec.pushMany, writeCells_ok _ _ _ hb, Res.bind_ok, Res.pure_eq]; rfl)
  refine ⟨_, e0, ⟨?_, ?_, ?_, ?_⟩, ?_⟩
  · simp only [hc, List.length_append]; rw [h.count]
  · rw [hc]; exact hn
  · simp only [List.length_append, List.length_take, List.length_map, List.length_drop]
    omega
  · have e : ((v.ensure (v.count + xs.length)).buffer.take (v.ensure (v.count + xs.length)).count ++ xs.map some).length
        = (v.ensure (v.count + xs.length)).count + xs.length := by
      simp only [List.length_append, List.length_take, List.length_map]; omega
    simp only
    rw [← e, List.take_left, hw.cells, List.map_append]
  · simp only [List.length_append, List.length_take, List.length_map, List.length_drop]
    omega

theorem pushElem_eq (v : Vec α) (x : α) : v.pushElem x = v.pushMany [x] := by
  simp only [Vec.pushElem, Vec.pushMany, writeCells, List.length_singleton]
  cases writeCell (v.ensure (v.count + 1)).buffer (v.ensure (v.count + 1)).count x <;> rfl

theorem Rep.pop {v : Vec α} {l : List α} {x : α} (h : Rep v (l ++ [x])) :
    v.pop = .ok ({ v with count := v.count - 1 }, some x) ∧ Rep { v with count := v.count - 1 } l := by
  have hc := h.count
  have hr := h.room
  simp only [List.length_append, List.length_singleton] at hc
  have hg := h.get (v.count - 1) (by simp [hc])
  refine ⟨?_, ⟨by simp [hc], by simp only; omega, h.size, ?_⟩⟩
  · simp only [Vec.pop, if_neg (show ¬ v.count = 0 by omega), hg, Res.bind_ok, Res.pure_eq]
    simp [hc]
  · have := congrArg (List.take (v.count - 1)) h.cells
    rw [List.take_take, min_eq_left (by omega), List.map_append] at this
    simp only
    rw [this]
    exact List.take_left' (by simp [hc])

theorem Rep.set {v : Vec α} {a b : List α} {x : α} (h : Rep v (a ++ x :: b)) (y : α) :
    ∃ w, v.set a.length y = .ok w ∧ Rep w (a ++ y :: b) ∧ w.size = v.size ∧ w.buffer.length = v.buffer.length := by
  have hc := h.count
  have hr := h.room
  have hs := h.size
  simp only [List.length_append, List.length_cons] at hc
  have hi : a.length < v.buffer.length := by omega
  refine ⟨{ v with buffer := v.buffer.set a.length (some y) },
    by simp only [Vec.set, writeCell, if_pos hi, Res.bind_ok, Res.pure_eq], ⟨?_, hr, by simpa using hs, ?_⟩, rfl, by simp⟩
  · simp [hc]
  · simp only
    rw [List.take_set, h.cells, List.map_append, List.set_append_right _ _ (by simp)]
    simp

theorem Rep.trim {v : Vec α} {l : List α} (h : Rep v l) : Rep v.trim l ∧ v.trim.size = v.trim.buffer.length := by
  have hr := h.room
  have hs := h.size
  refine ⟨⟨h.count, by simp [Vec.trim], by simp [Vec.trim], ?_⟩, by simp [Vec.trim]⟩
  simp only [Vec.trim]
  rw [take_reallocCells _ _ _ (by omega) (by omega), h.cells]

theorem Rep.clear {v : Vec α} {l : List α} (h : Rep v l) : Rep v.clear [] :=
  ⟨rfl, by simp [Vec.clear], h.size, by simp [Vec.clear]⟩

end Vec

namespace Builder

theorem readStr_ok : ∀ (s : Str) (b : List (Option Char)), nul ∉ s →
    readStr (s.map some ++ some nul :: b) = .ok s := by
  intro s
  induction s with
  | nil => intro b _; simp [readStr]
  | cons c s ih =>
    intro b h
    simp only [List.mem_cons, not_or] at h
    simp only [List.map_cons, List.cons_append, readStr, if_neg (Ne.symm h.1), ih b h.2, Res.bind_ok, Res.pure_eq]

theorem Rep.toStr {v : Vec Char} {s : Str} (h : v.Rep (s ++ [nul])) (hs : nul ∉ s) : toStr v = .ok s := by
  have : v.buffer = s.map some ++ some nul :: v.buffer.drop v.count := by
    conv_lhs => rw [← List.take_append_drop v.count v.buffer, h.cells]
    simp
  rw [Builder.toStr, this]
  exact readStr_ok s _ hs

/-- What an append leaves: the old characters, then as much of the new text as fits. -/
theorem append_rep {v : Vec Char} {s t : Str} (h : v.Rep (s ++ [nul])) :
    ∃ w, append v t = .ok w ∧ w.Rep (s ++ t ++ [nul]) ∧ (v.size = v.buffer.length → w.size = w.buffer.length) := by
  have hc := h.count
  have hr := h.room
  have hz := h.size
  simp only [List.length_append, List.length_singleton] at hc
  have hn : v.size - v.count + 1 ≠ 0 := by omega
  have hlen : (t.take (v.size - v.count + 1 - 1) ++ [nul]).length ≤ v.size - v.count + 1 := by
    simp only [List.length_append, List.length_take, List.length_singleton]; omega
  have h0 : ¬ v.count = 0 := by omega
  have hfit : v.count - 1 + (t.take (v.size - v.count + 1 - 1) ++ [nul]).length ≤ v.buffer.length := by omega
  have htake : v.buffer.take (v.count - 1) = s.map some := by
    have := congrArg (List.take (v.count - 1)) h.cells
    rw [List.take_take, min_eq_left (by omega), List.map_append] at this
    rw [this]
    exact List.take_left' (by simp [hc])
  have hw := writeCells_ok _ _ _ hfit
  simp only [append, if_neg h0, snprintf, if_neg hn, hw, Res.bind_ok]
  rw [htake]
  by_cases hg : v.size < v.count + t.length
  · simp only [if_pos hg]
    obtain ⟨g1, g2⟩ := Vec.le_growTo (v.count + t.length) v.size
    set b1 := s.map some ++ (t.take (v.size - v.count + 1 - 1) ++ [nul]).map some ++
      v.buffer.drop (v.count - 1 + (t.take (v.size - v.count + 1 - 1) ++ [nul]).length) with hb1
    have hb1l : b1.length = v.buffer.length := by
      simp only [hb1, List.length_append, List.length_map, List.length_take, List.length_drop, List.length_singleton]
      simp only [List.length_append, List.length_take, List.length_singleton] at hfit
      omega
    set g := Vec.growTo (v.count + t.length) v.size with hgd
    have hn' : g - v.count + 1 ≠ 0 := by omega
    have htt : t.take (g - v.count + 1 - 1) = t := List.take_of_length_le (by omega)
    have hfit' : v.count - 1 + (t ++ [nul]).length ≤ (reallocCells b1 g).length := by
      simp only [length_reallocCells, List.length_append, List.length_singleton]; omega
    simp only [Vec.ensure, ← hgd, if_neg hn', htt, writeCells_ok _ _ _ hfit', Res.bind_ok, Res.pure_eq]
    have hpre : (reallocCells b1 g).take (v.count - 1) = s.map some := by
      rw [take_reallocCells _ _ _ (by omega) (by omega), hb1, List.append_assoc]
      exact List.take_left' (by simp [hc])
    refine ⟨_, rfl, ⟨?_, ?_, ?_, ?_⟩, ?_⟩
    · simp [hc]; omega
    · exact g1
    · simp only [hpre, List.length_append, List.length_map, List.length_drop, length_reallocCells, List.length_singleton]
      omega
    · simp only [hpre]
      rw [List.take_left' (by simp [hc]; omega)]
      simp
    · intro _
      simp only [hpre, List.length_append, List.length_map, List.length_drop, length_reallocCells, List.length_singleton]
      omega
  · simp only [if_neg hg, Res.pure_eq]
    have htt : t.take (v.size - v.count + 1 - 1) = t := List.take_of_length_le (by omega)
    simp only [htt] at hfit ⊢
    have hl : (s.map some ++ (t ++ [nul]).map some ++
        v.buffer.drop (v.count - 1 + (t ++ [nul]).length)).length = v.buffer.length := by
      simp only [List.length_append, List.length_map, List.length_drop, List.length_singleton] at hfit ⊢
      omega
    refine ⟨_, rfl, ⟨?_, ?_, ?_, ?_⟩, ?_⟩
    · simp [hc]; omega
    · simp only; omega
    · simp only [hl]; exact hz
    · simp only
      rw [List.take_left' (by simp [hc]; omega)]
      simp
    · intro he
      simp only [hl]; exact he

theorem appendChar_rep {v : Vec Char} {s : Str} (c : Char) (h : v.Rep (s ++ [nul])) :
    ∃ w, appendChar v c = .ok w ∧ w.Rep (s ++ [c] ++ [nul]) ∧ w.size = w.buffer.length := by
  have hc := h.count
  simp only [List.length_append, List.length_singleton] at hc
  obtain ⟨w, h1, h2, _⟩ := Vec.Rep.set (a := s) (b := []) h c
  obtain ⟨u, h3, h4, h5⟩ := h2.pushMany [nul]
  refine ⟨u, ?_, h4, h5⟩
  have e : v.count - 1 = s.length := by omega
  simp only [appendChar, if_neg (show ¬ v.count = 0 by omega), e, h1, Res.bind_ok, Vec.pushElem_eq, h3]

theorem clear_rep {v : Vec Char} {s : Str} (h : v.Rep s) :
    ∃ w, clear v = .ok w ∧ w.Rep [nul] ∧ w.size = w.buffer.length := by
  obtain ⟨w, h1, h2, h3⟩ := h.clear.pushMany [nul]
  exact ⟨w, by rw [clear, Vec.pushElem_eq]; exact h1, h2, h3⟩

theorem create_rep (n : Nat) : ∃ w, create n = .ok w ∧ w.Rep [nul] ∧ w.size = w.buffer.length := by
  obtain ⟨w, h1, h2, h3⟩ := (Vec.Rep.create (α := Char) n).pushMany [nul]
  exact ⟨w, by rw [create, Vec.pushElem_eq]; exact h1, h2, h3⟩

end Builder
end Verif
