import Verif.Lemmas.StringUtil

/-!
# Properties of the string helpers (C46, C55)
-/

namespace Verif.StringProps
open TextSpec

/-- Every string has pieces. -/
theorem cut_exists (s : Str) (ds : List Str) : ∃ ps, Cut s ds ps := by
  induction ds generalizing s with
  | nil => exact ⟨_, .done s⟩
  | cons d ds ih =>
    cases h : strstr s d with
    | none => exact ⟨_, .absent (strstr_none h)⟩
    | some k =>
      obtain ⟨ps, hps⟩ := ih (s.drop (k + d.length))
      exact ⟨_, .cut (strstr_some h).1 hps⟩

/-- **C55**, `str_split`.  In a block that holds the string `s` at an offset,
`str_split` finds the pieces of `s`, stores each as a NUL-terminated string inside of `s`, and
changes nothing outside of it. -/
theorem C55_split (pre s post : Str) (ds ps : List Str) (hs : nul ∉ s) (hd : ∀ d ∈ ds, d ≠ []) (hc : Cut s ds ps) :
    ∃ m os, strSplit (pre ++ s ++ nul :: post) pre.length ds = (pre ++ m ++ nul :: post, os) ∧
      m.length = s.length ∧ os.map (cstrAt (pre ++ m ++ nul :: post)) = ps ∧
      ∀ o ∈ os, pre.length ≤ o ∧ o ≤ pre.length + s.length := by
  obtain ⟨m, os, h1, h2, h3, h4, h5, h6⟩ := strSplit_spec hc hd _ _ (StrAt.of_split (pre := pre) (post := post) hs)
  have e1 : (pre ++ s ++ nul :: post).take pre.length = pre := by rw [List.append_assoc]; exact List.take_left' rfl
  have e2 : (pre ++ s ++ nul :: post).drop (pre.length + s.length) = nul :: post := List.drop_left' (by simp)
  rw [e1] at h3
  rw [e2] at h4
  have hm : m = pre ++ (m.drop pre.length).take s.length ++ nul :: post := by
    conv_lhs => rw [← List.take_append_drop (pre.length + s.length) m, h4, List.take_add, h3]
  have hl : ((m.drop pre.length).take s.length).length = s.length := by
    simp only [List.length_append, List.length_cons] at h2
    simp only [List.length_take, List.length_drop]
    omega
  exact ⟨_, os, by rw [← hm]; exact h1, hl, by rw [← hm]; exact h5.map, h6⟩

/-- The pieces of the documentation's example (string_util.c:58-59). -/
example : Cut "abc x def ghi".toList [" x ".toList, " g".toList] ["abc".toList, "def".toList, "hi".toList] := by
  have h1 : strstr "abc x def ghi".toList " x ".toList = some 3 := by decide +kernel
  have h2 : strstr "def ghi".toList " g".toList = some 3 := by decide +kernel
  exact .cut (strstr_some h1).1 (.cut (strstr_some h2).1 (.done _))

/-- The pieces are determined. -/
theorem C55_unique (s : Str) (ds ps qs : List Str) (h : Cut s ds ps) (h' : Cut s ds qs) : ps = qs := by
  induction h generalizing qs with
  | done s => cases h'; rfl
  | absent ha =>
    cases h' with
    | absent => rfl
    | cut hf _ => exact (ha _ _ hf.1).elim
  | cut hf _ ih =>
    cases h' with
    | absent ha => exact (ha _ _ hf.1).elim
    | cut hf' hc' =>
      obtain ⟨rfl, rfl⟩ := hf.unique hf'
      rw [ih _ hc']

/-- **C55**, `strip`, where it holds: a string that is not made of blanks only, or that
something other than a blank precedes in its block, is trimmed exactly, and nothing outside of it is changed
except for blanks right in front of it.

Missing: a non-empty string of blanks at the start of its block (`C55_strip_underrun`). -/
theorem C55_strip_partial (pre s post : Str) (hs : nul ∉ s) (hb : s = [] ∨ ∃ c ∈ pre ++ s, c ≠ ' ') :
    ∃ m o t, strip (pre ++ s ++ nul :: post) pre.length = .ok (m, o) ∧ cstrAt m o = t ∧ Trimmed s t ∧
      m.length = (pre ++ s ++ nul :: post).length ∧ m.drop (pre.length + s.length) = nul :: post ∧
      pre.length ≤ o ∧ o + t.length ≤ pre.length + s.length ∧
      ∀ i : Nat, (pre ++ s ++ nul :: post)[i]? ≠ some ' ' → m[i]? = (pre ++ s ++ nul :: post)[i]? := by
  have hat := StrAt.of_split (pre := pre) (post := post) hs
  have e2 : (pre ++ s ++ nul :: post).drop (pre.length + s.length) = nul :: post := List.drop_left' (by simp)
  by_cases h0 : s = []
  · refine ⟨_, pre.length, [], by rw [strip, hat.cstr, h0]; rfl, ?_, by rw [h0]; exact trimmed_nil, rfl, e2, Nat.le_refl _,
      by simp, fun _ _ => rfl⟩
    rw [hat.cstr, h0]
  · obtain ⟨c, hc, hcb⟩ := hb.resolve_left h0
    obtain ⟨j, hj⟩ := List.mem_iff_getElem?.1 hc
    have hjl : j < pre.length + s.length := by
      by_contra hge
      rw [List.getElem?_eq_none (by simp; omega)] at hj
      cases hj
    have hj' : (pre ++ s ++ nul :: post)[j]? ≠ some ' ' := by
      rw [List.getElem?_append_left (by simpa using hjl), hj]
      simpa using hcb
    obtain ⟨m, o, t, h1, h2, h3, h4, _, h6, h7, h8, h9⟩ := strip_spec hat h0 j hj' hjl
    exact ⟨m, o, t, h1, h2.cstr, h3, h4, by rw [h6, e2], h7, h8, h9⟩

example : strip "ab  x y  \x00".toList 2 = .ok ("ab  x y\x00\x00\x00".toList, 4) ∧
    cstrAt "ab  x y\x00\x00\x00".toList 4 = "x y".toList := by decide +kernel

/-- **C55** fails for a string of blanks: `strip` walks below the block. -/
theorem C55_strip_underrun (n k : Nat) (post : Str) (hk : 0 < k) :
    strip (List.replicate n ' ' ++ List.replicate k ' ' ++ nul :: post) n = .ub := by
  have hs : nul ∉ List.replicate k ' ' := by
    intro h
    have := List.eq_of_mem_replicate h
    exact absurd this (by decide)
  have hat := StrAt.of_split (pre := List.replicate n ' ') (post := post) hs
  rw [List.length_replicate] at hat
  rw [strip, hat.cstr]
  simp only [List.length_replicate, if_neg (show ¬ k = 0 by omega)]
  rw [stripEnd_ub]
  · rfl
  · intro i hi
    rw [List.getElem?_append_left (by simp; omega), List.replicate_append_replicate, List.getElem?_replicate, if_pos hi]

/-- **C55**, both together as the table command uses them (cmd_table.c:40-52): in the block of
an input that starts with something other than a blank, all pieces of what follows are found and trimmed. -/
theorem C55_pieces (c : Char) (pre s : Str) (ds ps : List Str) (hc : c ≠ ' ') (hs : nul ∉ s) (hd : ∀ d ∈ ds, d ≠ [])
    (h : Cut s ds ps) :
    ∃ m os m' os', strSplit (c :: pre ++ s ++ [nul]) (c :: pre).length ds = (m, os) ∧
      stripAll m os = .ok (m', os') ∧ List.Forall₂ Trimmed ps (os'.map (cstrAt m')) ∧
      ∀ o ∈ os', (c :: pre).length ≤ o ∧ o < m'.length := by
  obtain ⟨m, os, h1, h2, h3, h4, h5, h6⟩ := strSplit_spec h hd _ _ (StrAt.of_split (pre := c :: pre) (post := []) hs)
  have h0 : m[0]? ≠ some ' ' := by
    have := congrArg (fun l => l[0]?) h3
    simp only [List.length_cons] at this
    rw [List.getElem?_take_of_lt (by omega), List.getElem?_take_of_lt (by omega)] at this
    rw [this]
    simpa using hc
  obtain ⟨m', os', ts, e1, e2, e3, e4, e5, e6⟩ := stripAll_spec h5 0 h0 fun o ho => by
    have := (h6 o ho).1
    simp at this
    omega
  refine ⟨m, os, m', os', h1, e1, by rw [e2.map]; exact e3, fun o ho => ⟨?_, ?_⟩⟩
  · obtain ⟨o', ho', hle⟩ := e6 o ho
    exact (h6 o' ho').1.trans hle
  · have key : ∀ (os : List Nat) (ps : List Str), Layout m' os ps → ∀ o ∈ os, o < m'.length := by
      intro os
      induction os with
      | nil => intro _ _ o ho; simp at ho
      | cons a os ih =>
        intro ps hl o ho
        cases ps with
        | nil => exact hl.elim
        | cons p ps =>
          simp only [List.mem_cons] at ho
          rcases ho with rfl | ho
          · have := hl.1.le; omega
          · exact ih ps hl.2.2 o ho
    exact key os' ts e2 o ho

/-- A table command with a blank piece: no underrun, the piece is empty. -/
example : let (m, os) := strSplit "table x;   ; 3 ;1\x00".toList 6 [";".toList, ";".toList, ";".toList, " fold ".toList, ";".toList]
    ∃ m' os', stripAll m os = .ok (m', os') ∧ os'.map (cstrAt m') = ["x".toList, [], "3".toList, "1".toList] :=
  ⟨"table x\x00\x00\x00\x00\x00 3\x00\x001\x00".toList, [6, 11, 13, 16], by decide +kernel, by decide +kernel⟩

/-- **C55**, `begins_with`. -/
theorem C55_begins (pre s : Str) : beginsWith pre s = true ↔ ∃ r, s = pre ++ r := by
  unfold beginsWith
  split
  · rename_i h
    simp only [Bool.false_eq_true, false_iff, not_exists]
    intro r hr
    rw [hr] at h
    simp at h
    omega
  · constructor
    · intro h
      exact ⟨s.drop pre.length, by conv_lhs => rw [← List.take_append_drop pre.length s, eq_of_beq h]⟩
    · rintro ⟨r, rfl⟩
      simp

example : beginsWith "load ".toList "load f".toList = true := by decide +kernel

/-! ## Lines -/

theorem Lines.ne_nil {s : Str} {ls : List Str} (h : Lines s ls) : ls ≠ [] := by cases h <;> simp

/-- Every text has lines, and only one way. -/
theorem lines_exists (s : Str) : ∃ ls, Lines s ls := by
  induction s with
  | nil => exact ⟨_, .last (by simp)⟩
  | cons c s ih =>
    obtain ⟨ls, h⟩ := ih
    by_cases hc : c = '\n'
    · exact ⟨[] :: ls, by rw [hc]; exact Lines.more (a := []) (by simp) h⟩
    · cases h with
      | last hn => exact ⟨_, .last (by simp [Ne.symm hc, hn])⟩
      | more ha hb => exact ⟨_, by rw [← List.cons_append]; exact .more (by simp [Ne.symm hc, ha]) hb⟩

theorem findLine_absent (s : Str) (hs : '\n' ∉ s.drop 1) (k : Nat) : findLine s k = ([], k) := by
  induction s with
  | nil => rfl
  | cons c s ih =>
    have hd : s.head? ≠ some '\n' := by
      intro h
      cases s with
      | nil => simp at h
      | cons d s => simp at h; subst h; simp at hs
    rw [findLine, if_neg hd]
    refine ih fun h => hs ?_
    simp only [List.drop_succ_cons, List.drop_zero]
    exact List.mem_of_mem_drop h

/-- A run over `c ++ a`, where `a` has no newline, up to the newline behind it. -/
theorem findLine_to (c : Char) (a b : Str) (ha : '\n' ∉ a) (k : Nat) :
    findLine (c :: a ++ '\n' :: b) k = if k - 1 = 0 then (b, 0) else findLine ('\n' :: b) (k - 1) := by
  induction a generalizing c with
  | nil => rw [List.cons_append, List.nil_append, findLine]; simp
  | cons d a ih =>
    simp only [List.mem_cons, not_or] at ha
    rw [List.cons_append, findLine, if_neg (by simpa using Ne.symm ha.1)]
    exact ih d ha.2

theorem findLine_lines {c : Char} {s : Str} {ls : List Str} (h : Lines s ls) (k : Nat) (hk : 0 < k) :
    (∀ l, ls[k]? = some l → ∃ r, findLine (c :: s) k = (r, 0) ∧ r.takeWhile (· != '\n') = l) ∧
    (ls[k]? = none → (findLine (c :: s) k).2 ≠ 0) := by
  induction h generalizing c k with
  | @last s hn =>
    have := findLine_absent (c :: s) (by simpa using hn) k
    constructor
    · intro l hl
      obtain ⟨k, rfl⟩ := Nat.exists_eq_succ_of_ne_zero (Nat.ne_of_gt hk)
      simp at hl
    · intro _
      rw [this]
      exact Nat.ne_of_gt hk
  | @more a b ls ha hb ih =>
    have hf := findLine_to c a b ha k
    obtain ⟨k, rfl⟩ := Nat.exists_eq_succ_of_ne_zero (Nat.ne_of_gt hk)
    rw [List.cons_append] at hf
    rw [hf]
    simp only [Nat.succ_eq_add_one, Nat.add_sub_cancel, List.getElem?_cons_succ]
    rcases Nat.eq_zero_or_pos k with rfl | hk'
    · simp only [if_true]
      constructor
      · intro l hl
        refine ⟨b, rfl, ?_⟩
        cases hb with
        | last hn =>
          have := List.takeWhile_append_of_pos (p := (· != '\n')) (l₁ := b) (l₂ := []) fun c hc => by
            simpa using fun e : c = '\n' => hn (e ▸ hc)
          simp at hl
          subst hl
          simpa using this
        | more ha' _ =>
          simp at hl
          subst hl
          rw [List.takeWhile_append_of_pos fun c hc => by simpa using fun e : c = '\n' => ha' (e ▸ hc)]
          simp
      · intro hn
        have := Lines.ne_nil hb
        cases ls with
        | nil => exact (this rfl).elim
        | cons => simp at hn
    · rw [if_neg (Nat.ne_of_gt hk')]
      exact ih (c := '\n') k hk'

/-- **C46**, where it holds: for a text that does not start with a newline, line `i` is the answer for the
index `i`, and there is no answer beyond the last line.

Missing: texts that start with a newline (`C46_leading_newline`). -/
theorem C46_line_partial (s : Str) (ls : List Str) (h : Lines s ls) (hs : s.head? ≠ some '\n') (i : Nat) :
    (∀ l, ls[i]? = some l → ∃ r, getLineOfString (some s) i = .line r l.length ∧ r.take l.length = l) ∧
    (ls[i]? = none → getLineOfString (some s) i = .unset) := by
  have pref : ∀ r l : Str, r.takeWhile (· != '\n') = l → r.take l.length = l := by
    intro r l e
    have := List.takeWhile_prefix (p := (· != '\n')) (l := r)
    rw [e] at this
    exact (List.prefix_iff_eq_take.1 this).symm
  rcases Nat.eq_zero_or_pos i with rfl | hi
  · constructor
    · intro l hl
      have htw : s.takeWhile (· != '\n') = l := by
        cases h with
        | last hn =>
          have := List.takeWhile_append_of_pos (p := (· != '\n')) (l₁ := s) (l₂ := []) fun c hc => by
            simpa using fun e : c = '\n' => hn (e ▸ hc)
          simp at hl
          subst hl
          simpa using this
        | more ha _ =>
          simp at hl
          subst hl
          rw [List.takeWhile_append_of_pos fun c hc => by simpa using fun e : c = '\n' => ha (e ▸ hc)]
          simp
      exact ⟨s, by simp [getLineOfString, htw], pref s l htw⟩
    · intro hn
      have := Lines.ne_nil h
      cases ls with
      | nil => exact (this rfl).elim
      | cons => simp at hn
  · simp only [getLineOfString, if_pos hi]
    -- the first character is not a newline: it belongs to the first line
    cases s with
    | nil =>
      have hl : ls = [[]] := by
        generalize hx : ([] : Str) = s at h
        cases h with
        | last => rw [← hx]
        | more _ _ => simp at hx
      subst hl
      obtain ⟨i, rfl⟩ := Nat.exists_eq_succ_of_ne_zero (Nat.ne_of_gt hi)
      simp [findLine]
    | cons c s =>
      have hc : c ≠ '\n' := by simpa using hs
      obtain ⟨ls', h', htl⟩ : ∃ ls', Lines s ls' ∧ ls'.tail = ls.tail ∧ ls'.length = ls.length := by
        generalize hx : c :: s = s' at h
        cases h with
        | last hn =>
          subst hx
          simp only [List.mem_cons, not_or] at hn
          exact ⟨_, .last hn.2, rfl, rfl⟩
        | @more a b ls₀ ha hb =>
          cases a with
          | nil =>
            simp only [List.nil_append, List.cons.injEq] at hx
            exact (hc hx.1).elim
          | cons d a =>
            simp only [List.cons_append, List.cons.injEq] at hx
            obtain ⟨rfl, rfl⟩ := hx
            simp only [List.mem_cons, not_or] at ha
            exact ⟨_, .more ha.2 hb, rfl, rfl⟩
      have hget : ls[i]? = ls'[i]? := by
        obtain ⟨i, rfl⟩ := Nat.exists_eq_succ_of_ne_zero (Nat.ne_of_gt hi)
        have h1 : ∀ l : List Str, l[i + 1]? = l.tail[i]? := fun l => by cases l <;> simp
        rw [Nat.succ_eq_add_one, h1, h1, htl.1]
      obtain ⟨k1, k2⟩ := findLine_lines (c := c) h' i hi
      rw [← hget] at k1 k2
      constructor
      · intro l hl
        obtain ⟨r, e1, e2⟩ := k1 l hl
        exact ⟨r, by simp [e1, e2], pref r l e2⟩
      · intro hn
        have := k2 hn
        split
        · rfl
        · rename_i h0; exact (h0 this).elim

example : Lines "ab\n\nc".toList ["ab".toList, [], "c".toList] :=
  Lines.more (a := "ab".toList) (by decide) (Lines.more (a := []) (by decide) (.last (by decide)))

/-- **C46** fails for a text that starts with a newline: that newline is not counted, every line but the
first is answered by its successor. -/
theorem C46_leading_newline (s : Str) (ls : List Str) (h : Lines s ls) (i : Nat) (hi : 0 < i) :
    Lines ('\n' :: s) ([] :: ls) ∧
    (∀ l, ls[i]? = some l → ∃ r, getLineOfString (some ('\n' :: s)) i = .line r l.length ∧ r.take l.length = l) ∧
    (ls[i]? = none → getLineOfString (some ('\n' :: s)) i = .unset) := by
  refine ⟨Lines.more (a := []) (by simp) h, ?_⟩
  obtain ⟨k1, k2⟩ := findLine_lines (c := '\n') h i hi
  simp only [getLineOfString, if_pos hi]
  constructor
  · intro l hl
    obtain ⟨r, e1, e2⟩ := k1 l hl
    refine ⟨r, by simp [e1, e2], ?_⟩
    have := List.takeWhile_prefix (p := (· != '\n')) (l := r)
    rw [e2] at this
    exact (List.prefix_iff_eq_take.1 this).symm
  · intro hn
    have := k2 hn
    split
    · rfl
    · rename_i h0; exact (h0 this).elim

/-- The text with the lines "", "a", "b": the answer for line 1 is line 2. -/
example : getLineOfString (some "\na\nb".toList) 1 = .line "b".toList 1 := by decide +kernel

end Verif.StringProps
