import Verif.Spec.Layout
import Verif.Props.StringUtil

/-!
# Lemmas: widths of texts
-/

namespace Verif.LayoutSpec
open Layout TextSpec

/-- What is printed between two places of a line: it takes `n` columns, whatever comes next. -/
def Piece (s : Str) (n : Nat) : Prop := '\n' ∉ s ∧ ∀ u, columnsFrom false (s ++ u) = n + columnsFrom false u

theorem Piece.nil : Piece [] 0 := ⟨by simp, by simp⟩

theorem Piece.append {s s' n n'} (h : Piece s n) (h' : Piece s' n') : Piece (s ++ s') (n + n') := by
  refine ⟨by simp [h.1, h'.1], fun u => ?_⟩
  rw [List.append_assoc, h.2, h'.2, Nat.add_assoc]

theorem Piece.columns {s n} (h : Piece s n) : columns s = n := by
  have := h.2 []
  simpa [LayoutSpec.columns, columnsFrom] using this

theorem Piece.char {c} (h1 : c ≠ Char.ofNat 27) (h2 : c ≠ '\n') (h3 : c.toNat < 128) : Piece [c] 1 := by
  refine ⟨by simpa using Ne.symm h2, fun u => ?_⟩
  simp only [List.cons_append, List.nil_append, columnsFrom, if_neg h1]
  rw [if_neg (by omega)]

theorem Piece.spaces (n : Nat) : Piece (spaces n) n := by
  induction n with
  | zero => exact .nil
  | succ n ih =>
    have := (Piece.char (c := ' ') (by decide) (by decide) (by decide)).append ih
    rwa [Nat.add_comm] at this

theorem columnsFrom_escape (body s : Str) (h : ∀ c ∈ body, c ≠ 'm' ∧ c ≠ '\n') :
    columnsFrom true (body ++ 'm' :: s) = columnsFrom false s := by
  induction body with
  | nil => simp [columnsFrom]
  | cons c body ih =>
    have hc := (h c (by simp)).1
    simp only [List.cons_append, columnsFrom]
    rw [show (c != 'm') = true by simpa using hc]
    exact ih fun c hc => h c (by simp [hc])

theorem TidyLine.piece {b s} (h : TidyLine b s) : Piece s (LayoutSpec.columns s) := by
  induction h with
  | nil => exact .nil
  | @char b c s h1 h2 h3 _ ih =>
    have h := (Piece.char h1 h2 h3).append ih
    have e := h.columns
    simp only [List.cons_append, List.nil_append] at h e
    rwa [e]
  | @escape body s hb _ ih =>
    have hcol : ∀ u, columnsFrom false (Char.ofNat 27 :: (body ++ 'm' :: s) ++ u) = columnsFrom false (s ++ u) := by
      intro u
      simp only [List.cons_append, List.append_assoc, columnsFrom, if_true]
      exact columnsFrom_escape body (s ++ u) hb
    have e : LayoutSpec.columns (Char.ofNat 27 :: (body ++ 'm' :: s)) = LayoutSpec.columns s := by
      simpa [LayoutSpec.columns] using hcol []
    refine ⟨?_, fun u => by rw [hcol u, e]; exact ih.2 u⟩
    simp only [List.mem_cons, List.mem_append, not_or]
    exact ⟨by decide, fun h => (hb _ h).2 rfl, by decide, ih.1⟩

theorem afterM_body (body s : Str) (h : ∀ c ∈ body, c ≠ 'm' ∧ c ≠ '\n') : afterM (body ++ 'm' :: s) = .ok s := by
  induction body with
  | nil => simp [afterM]
  | cons c body ih =>
    simp only [List.cons_append, afterM, if_neg (h c (by simp)).1]
    exact ih fun c hc => h c (by simp [hc])

theorem esc_eq : esc = Char.ofNat 27 := rfl

/-- What ends a line. -/
def LineEnd (e : Str) : Prop := e = [] ∨ ∃ u, e = '\n' :: u

theorem LineEnd.skip {e} (h : LineEnd e) : skipAnsi e = .ok e := by
  rcases h with rfl | ⟨u, rfl⟩
  · rfl
  · rw [skipAnsi, if_neg (by decide)]

theorem TidyLine.skip {s e} (h : TidyLine true s) (he : LineEnd e) :
    ∃ s', skipAnsi (s ++ e) = .ok (s' ++ e) ∧ TidyLine false s' ∧ LayoutSpec.columns s' = LayoutSpec.columns s ∧ s'.length ≤ s.length := by
  cases h with
  | nil => exact ⟨[], he.skip, .nil, rfl, Nat.le_refl _⟩
  | @char _ c s h1 h2 h3 hs =>
    exact ⟨c :: s, by simp [skipAnsi, esc_eq, h1], .char h1 h2 h3 hs, rfl, Nat.le_refl _⟩
  | @escape body s hb hs =>
    refine ⟨s, ?_, hs, ?_, by simp; omega⟩
    · simp only [List.cons_append, List.append_assoc, skipAnsi, esc_eq, if_true]
      exact afterM_body body (s ++ e) hb
    · simp only [LayoutSpec.columns, columnsFrom, if_true]
      exact (columnsFrom_escape body s hb).symm

theorem strlenLoop_end {e} (he : LineEnd e) (n : Nat) : strlenLoop n e = .ok 0 := by
  rcases he with rfl | ⟨u, rfl⟩ <;> cases n <;> simp [strlenLoop]

theorem strlenLoop_tidy {e} (he : LineEnd e) : ∀ (m : Nat) (s : Str), s.length ≤ m → TidyLine false s →
    ∀ n, s.length ≤ n → strlenLoop n (s ++ e) = .ok (LayoutSpec.columns s) := by
  intro m
  induction m with
  | zero =>
    intro s hs _ n _
    obtain rfl : s = [] := by simpa using hs
    exact strlenLoop_end he n
  | succ m ih =>
    intro s hs ht n hn
    cases ht with
    | nil => exact strlenLoop_end he n
    | @char _ c s h1 h2 h3 hs' =>
      cases n with
      | zero => simp at hn
      | succ n =>
        simp only [List.length_cons] at hs hn
        obtain ⟨s', e1, e2, e3, e4⟩ := hs'.skip he
        simp only [List.cons_append, strlenLoop, if_neg h2, e1, Res.bind_ok]
        rw [ih s' (by omega) e2 n (by omega)]
        simp only [Res.bind_ok, Res.pure_eq, Res.ok.injEq]
        simp only [LayoutSpec.columns, columnsFrom, if_neg h1] at e3 ⊢
        rw [if_neg (by omega), e3, Nat.add_comm]

/-- `console_strlen` finds the width of a tidy line. -/
theorem consoleStrlen_tidy {s e} (h : TidyLine true s) (he : LineEnd e) : consoleStrlen (s ++ e) = .ok (LayoutSpec.columns s) := by
  obtain ⟨s', e1, e2, e3, e4⟩ := h.skip he
  simp only [consoleStrlen, e1, Res.bind_ok]
  rw [strlenLoop_tidy he _ s' (Nat.le_refl _) e2 _ (by simp), e3]

/-- A line of a text as `get_line_of_string` finds it: its bytes, and what comes behind. -/
theorem getLine_split {s : Str} {i : Nat} {r : Str} {n : Nat} (h : getLineOfString (some s) i = .line r n) :
    ∃ l e, r = l ++ e ∧ l.length = n ∧ '\n' ∉ l ∧ LineEnd e := by
  simp only [getLineOfString] at h
  generalize (if i > 0 then findLine s i else (s, i)) = x at h
  by_cases hk : x.2 ≠ 0
  · rw [if_pos hk] at h
    cases h
  · rw [if_neg hk] at h
    simp only [LineAnswer.line.injEq] at h
    obtain ⟨rfl, rfl⟩ := h
    generalize x.1 = r
    refine ⟨r.takeWhile (· != '\n'), r.dropWhile (· != '\n'), List.takeWhile_append_dropWhile.symm, rfl, ?_, ?_⟩
    · intro hm
      have := List.all_takeWhile (p := (· != '\n')) (l := r)
      have := List.all_eq_true.1 this _ hm
      simp at this
    · cases hd : r.dropWhile (· != '\n') with
      | nil => exact .inl rfl
      | cons c u =>
        have := List.head_dropWhile_not (p := (· != '\n')) (l := r) (by simp [hd])
        simp [hd] at this
        exact .inr ⟨u, by rw [this]⟩

theorem Lines.exists (s : Str) : ∃ ls, Lines s ls ∧ ls.length = s.count '\n' + 1 := by
  induction s with
  | nil => exact ⟨_, .last (by simp), rfl⟩
  | cons c s ih =>
    obtain ⟨ls, h, hl⟩ := ih
    by_cases hc : c = '\n'
    · subst hc
      exact ⟨[] :: ls, .more (a := []) (by simp) h, by simp [hl]⟩
    · rw [List.count_cons_of_ne (by simpa using hc)]
      cases h with
      | last hn => exact ⟨_, .last (by simpa [Ne.symm hc] using hn), by simpa using hl⟩
      | @more a b ls ha hb =>
        exact ⟨_, .more (a := c :: a) (by simpa [Ne.symm hc] using ha) hb, by simpa using hl⟩

/-- A line of a tidy text: `get_line_of_string` finds exactly the lines below the height. -/
theorem Tidy.line {s : Str} (h : Tidy (some s)) (i : Nat) :
    (i < s.count '\n' + 1 → ∃ l e, getLineOfString (some s) i = .line (l ++ e) l.length ∧ LineEnd e ∧ TidyLine true l ∧
      ∃ ls, Lines s ls ∧ ls[i]? = some l) ∧
    (s.count '\n' + 1 ≤ i → getLineOfString (some s) i = .unset) := by
  obtain ⟨ls, hls, hlen⟩ := Lines.exists s
  obtain ⟨h1, h2⟩ := StringProps.C46_line_partial s ls hls h.1 i
  constructor
  · intro hi
    obtain ⟨l, hl⟩ : ∃ l, ls[i]? = some l := ⟨_, List.getElem?_eq_getElem (by omega)⟩
    obtain ⟨r, hr, ht⟩ := h1 l hl
    obtain ⟨l', e, rfl, hlen', _, he⟩ := getLine_split hr
    have : l' = l := by rw [← ht, List.take_append_of_le_length (by omega), ← hlen', List.take_length]
    subst this
    exact ⟨l', e, hr, he, h.2 ls hls _ (List.mem_of_getElem? hl), ls, hls, hl⟩
  · intro hi
    exact h2 (List.getElem?_eq_none (by omega))

theorem Lines.unique {s ls ls'} (h : Lines s ls) (h' : Lines s ls') : ls = ls' := by
  induction h generalizing ls' with
  | last hn =>
    cases h' with
    | last => rfl
    | more => simp at hn
  | @more a b ls ha _ ih =>
    generalize hx : a ++ '\n' :: b = x at h'
    cases h' with
    | last hn => subst hx; simp at hn
    | @more a' b' ls' ha' hb' =>
      have : a = a' ∧ b = b' := by
        clear ih hb'
        induction a generalizing a' with
        | nil =>
          cases a' with
          | nil => simpa using hx
          | cons c a' => simp at hx ha'; exact absurd hx.1 ha'.1
        | cons c a ih =>
          cases a' with
          | nil => simp at hx ha; exact absurd hx.1.symm ha.1
          | cons c' a' =>
            simp only [List.cons_append, List.cons.injEq] at hx
            simp only [List.mem_cons, not_or] at ha ha'
            obtain ⟨rfl, hx⟩ := hx
            obtain ⟨rfl, rfl⟩ := ih ha.2 ha'.2 hx
            exact ⟨rfl, rfl⟩
      obtain ⟨rfl, rfl⟩ := this
      rw [ih hb']

theorem textWidthLoop_tidy {s : Str} (h : Tidy (some s)) (n i res : Nat) (hn : i + n ≤ s.count '\n' + 1) :
    ∃ w, textWidthLoop (some s) n i res = .ok w ∧ res ≤ w ∧
      (∀ j, i ≤ j → j < i + n → ∀ l e, getLineOfString (some s) j = .line (l ++ e) l.length → TidyLine true l →
        LineEnd e → LayoutSpec.columns l ≤ w) ∧
      (w = res ∨ ∃ ls l, Lines s ls ∧ l ∈ ls ∧ w = LayoutSpec.columns l) := by
  induction n generalizing i res with
  | zero => exact ⟨res, rfl, Nat.le_refl _, fun j h1 h2 => by omega, .inl rfl⟩
  | succ n ih =>
    obtain ⟨l, e, hl, he, ht, ls, hls, hi⟩ := (h.line i).1 (by omega)
    obtain ⟨w, hw, hres, hall, hor⟩ := ih (i + 1) (max (LayoutSpec.columns l) res) (by omega)
    refine ⟨w, ?_, by omega, ?_, ?_⟩
    · simp only [textWidthLoop, hl, consoleStrlen_tidy ht he, Res.bind_ok]
      exact hw
    · intro j h1 h2 l' e' hl' ht' he'
      by_cases hj : j = i
      · subst hj
        rw [hl] at hl'
        simp only [LineAnswer.line.injEq] at hl'
        have : l = l' := (List.append_inj hl'.1 hl'.2).1
        subst this
        omega
      · exact hall j (by omega) (by omega) l' e' hl' ht' he'
    · rcases hor with rfl | hor
      · rcases Nat.le_total res (LayoutSpec.columns l) with hle | hle
        · exact .inr ⟨ls, l, hls, List.mem_of_getElem? hi, by omega⟩
        · exact .inl (by omega)
      · exact .inr hor

/-- `get_text_width` of a tidy text: the width of its widest line. -/
theorem textWidth_tidy {text : Option Str} (h : Tidy text) : ∃ w, textWidth text = .ok w ∧
    (∀ s, text = some s → (∀ ls, Lines s ls → ∀ l ∈ ls, LayoutSpec.columns l ≤ w) ∧
      ∃ ls l, Lines s ls ∧ l ∈ ls ∧ w = LayoutSpec.columns l) ∧ (text = none → w = 0) := by
  cases text with
  | none => exact ⟨0, rfl, by simp, fun _ => rfl⟩
  | some s =>
    obtain ⟨w, hw, _, hall, hor⟩ := textWidthLoop_tidy h (s.count '\n' + 1) 0 0 (by omega)
    refine ⟨w, hw, ?_, by simp⟩
    rintro _ ⟨⟩
    have key : ∀ ls, Lines s ls → ∀ l ∈ ls, LayoutSpec.columns l ≤ w := by
      intro ls hls l hl
      obtain ⟨i, hi⟩ := List.mem_iff_getElem?.1 hl
      have hlen : i < s.count '\n' + 1 := by
        obtain ⟨ls', hls', hlen⟩ := Lines.exists s
        rw [← Lines.unique hls hls'] at hlen
        have := (List.getElem?_eq_some_iff.1 hi).1
        omega
      obtain ⟨l', e, hl', he, ht, ls', hls', hi'⟩ := (h.line i).1 hlen
      rw [Lines.unique hls' hls, hi] at hi'
      obtain rfl : l = l' := by simpa using hi'
      exact hall i (by omega) (by omega) l e hl' ht he
    refine ⟨key, ?_⟩
    rcases hor with rfl | hor
    · obtain ⟨ls, hls, hlen⟩ := Lines.exists s
      cases ls with
      | nil => simp at hlen
      | cons l ls => exact ⟨_, l, hls, by simp, by have := key _ hls l (by simp); omega⟩
    · exact hor

/-! ## Padding -/

theorem alignText_piece (a : HAlign) {w len : Nat} {s : Str} (h : Piece s len) (hw : len ≤ w) :
    Piece (alignText a w len s) w := by
  cases a with
  | left =>
    simp only [alignText, padRight]
    have := h.append (Piece.spaces (w - len))
    have e : ((w : Int) + s.length - len).natAbs - s.length = w - len := by omega
    rw [e]
    rwa [show len + (w - len) = w by omega] at this
  | right =>
    simp only [alignText, padLeft]
    rw [if_neg (by omega)]
    have := (Piece.spaces (w - len)).append h
    have e : ((w : Int) + s.length - len).natAbs - s.length = w - len := by omega
    rw [e]
    rwa [show w - len + len = w by omega] at this
  | center =>
    simp only [alignText]
    obtain ⟨d, rfl⟩ := Nat.exists_eq_add_of_le hw
    have e : ((len + d : Nat) : Int) - len = d := by omega
    rw [e]
    have e2 : (d : Int).tdiv 2 = ((d / 2 : Nat) : Int) := by
      rw [Int.tdiv_eq_ediv_of_nonneg (by omega)]; omega
    have e3 : (d : Int).tmod 2 = ((d % 2 : Nat) : Int) := by
      rw [Int.tmod_eq_emod_of_nonneg (by omega)]; omega
    have pl : ∀ k : Nat, padLeft (k : Int) [] = spaces k := fun k => by
      rw [padLeft, if_neg (by omega)]; simp
    rw [e2, e3, pl]
    split
    · rename_i h0
      rw [pl]
      have := ((Piece.spaces (d / 2)).append h).append (Piece.spaces (d / 2))
      rwa [show d / 2 + len + d / 2 = len + d by omega] at this
    · rename_i h0
      rw [show ((d / 2 : Nat) : Int) + 1 = ((d / 2 + 1 : Nat) : Int) by omega, pl]
      have := ((Piece.spaces (d / 2)).append h).append (Piece.spaces (d / 2 + 1))
      rwa [show d / 2 + len + (d / 2 + 1) = len + d by omega] at this

/-! ## Lines of borders -/

theorem Piece.ofBytes {a b c : Nat} (ha : 192 ≤ a ∧ a < 256) (hb : 128 ≤ b ∧ b < 192) (hc : 128 ≤ c ∧ c < 192) :
    Piece [Char.ofNat a, Char.ofNat b, Char.ofNat c] 1 := by
  have nat : ∀ n, n < 256 → (Char.ofNat n).toNat = n := fun n hn => by
    have : n.isValidChar := by left; omega
    simp only [Char.ofNat, this, dif_pos]
    rfl
  have ne : ∀ n d, n < 256 → d.toNat ≠ n → Char.ofNat n ≠ d := fun n d hn hd e => hd (by rw [← e, nat n hn])
  refine ⟨?_, fun u => ?_⟩
  · have h10 : ('\n').toNat = 10 := rfl
    simp only [List.mem_cons, List.not_mem_nil, or_false, not_or]
    exact ⟨(ne a _ ha.2 (by omega)).symm, (ne b _ (by omega) (by omega)).symm, (ne c _ (by omega) (by omega)).symm⟩
  · have h27 : (Char.ofNat 27).toNat = 27 := rfl
    simp only [List.cons_append, List.nil_append, columnsFrom]
    rw [if_neg (ne a _ ha.2 (by omega)), if_neg (ne b _ (by omega) (by omega)), if_neg (ne c _ (by omega) (by omega))]
    rw [nat a ha.2, nat b (by omega), nat c (by omega), if_neg (by omega), if_pos hb, if_pos hc]
    omega

theorem utf8_piece {c : Char} (h : c ∈ matrixSingle ++ matrixDouble) : Piece (utf8 c) 1 := by
  have hc : c = ' ' ∨ 4096 ≤ c.toNat ∧ c.toNat < 65536 := by
    revert c
    decide
  rcases hc with rfl | hc
  · exact .char (by decide) (by decide) (by decide)
  · rw [utf8, if_neg (by omega)]
    have h2 : c.toNat / 64 % 64 < 64 := Nat.mod_lt _ (by omega)
    have h3 : c.toNat % 64 < 64 := Nat.mod_lt _ (by omega)
    exact .ofBytes (by omega) (by omega) (by omega)

theorem glyph_piece (d : Bool) (i : Nat) : Piece (glyph (if d then matrixDouble else matrixSingle) i) 1 := by
  apply utf8_piece
  have : ' ' ∈ matrixSingle ++ matrixDouble := by decide
  cases d with
  | true =>
    simp only [if_true]
    cases h : matrixDouble[i]? with
    | none => exact this
    | some c => exact List.mem_append_right _ (List.mem_of_getElem? h)
  | false =>
    simp only [Bool.false_eq_true, if_false]
    cases h : matrixSingle[i]? with
    | none => exact this
    | some c => exact List.mem_append_left _ (List.mem_of_getElem? h)

theorem repeated_piece {s : Str} (h : Piece s 1) (n : Nat) : Piece (repeated s n) n := by
  induction n with
  | zero => exact .nil
  | succ n ih =>
    have := h.append ih
    rwa [Nat.add_comm] at this

theorem hline_piece (b : Border) (w : Nat) : Piece (hline b w) w := by
  cases b with
  | none => exact repeated_piece (.char (by decide) (by decide) (by decide)) w
  | single => exact repeated_piece (glyph_piece false 9) w
  | double => exact repeated_piece (glyph_piece true 9) w

theorem vline_piece (b : Border) : Piece (vline b) 1 := by
  cases b with
  | none => exact .char (by decide) (by decide) (by decide)
  | single => exact glyph_piece false 10
  | double => exact glyph_piece true 10

theorem intersection_piece (t : Table) (r k : Nat) : Piece (intersection t r k) 1 := by
  have key : ∀ (p : Prop) [Decidable p] (i : Nat), Piece (glyph (if p then matrixDouble else matrixSingle) i) 1 := by
    intro p _ i
    by_cases hp : p
    · rw [if_pos hp]; exact glyph_piece true i
    · rw [if_neg hp]; exact glyph_piece false i
  exact key _ _

end Verif.LayoutSpec
