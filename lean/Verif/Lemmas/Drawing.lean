import Verif.Spec.Drawing

/-!
# Lemmas about coloured text and drawings
-/

namespace Verif.DrawingLemmas
open Drawing DrawingSpec Layout LayoutSpec
variable {V : Type}

/-! ## Two ways of printing -/

/-- Both calls return related values, or both fail in the same way. -/
inductive Both {α β : Type} (R : α → β → Prop) : Res α → Res β → Prop
  | ok {a b} : R a b → Both R (.ok a) (.ok b)
  | defect : Both R .defect .defect
  | ub : Both R .ub .ub

theorem Both.bind {α β α' β' : Type} {R : α → β → Prop} {S : α' → β' → Prop} {x y f g} (h : Both R x y)
    (hf : ∀ a b, R a b → Both S (f a) (g b)) : Both S (Res.bind x f) (Res.bind y g) := by
  cases h with
  | ok h => exact hf _ _ h
  | defect => exact .defect
  | ub => exact .ub

/-- A relation between pieces of text that holds for equal names of a tree and for punctuation, and is kept by
concatenation. -/
structure Congruence (R : List Str → List Str → Prop) (N : Str → Prop) : Prop where
  nil : R [] []
  append : ∀ {a b c d}, R a b → R c d → R (a ++ c) (b ++ d)
  name : ∀ {s}, N s → R [s] [s]
  punct : ∀ s ∈ [openP, closeP, commaP, blankP], R [s] [s]

section
variable {R : List Str → List Str → Prop} {N : Str → Prop} (hR : Congruence R N)
include hR

theorem Congruence.cons {s a b} (h : R [s] [s]) (h' : R a b) : R (s :: a) (s :: b) := hR.append h h'

theorem Congruence.wrap {a b} (x : Bool) (h : R a b) : R (wrapIf x a) (wrapIf x b) := by
  cases x
  · exact h
  · exact hR.append (hR.cons (hR.punct _ (by simp)) h) (hR.punct _ (by simp))

theorem Congruence.infix {o : Op} (h : N o.name) : R (infixPieces o) (infixPieces o) := by
  unfold infixPieces
  split
  · exact hR.cons (hR.punct _ (by simp)) (hR.cons (hR.name h) (hR.punct _ (by simp)))
  · exact hR.name h

theorem printArgs_both {fc fc' : V → Str} {fv fv' : Str → Str} {cs : List (Tree V)}
    (ih : ∀ c ∈ cs, ∀ l r, Both R (printTree fc fv c l r) (printTree fc' fv' c l r)) :
    Both R (printArgs fc fv cs) (printArgs fc' fv' cs) := by
  induction cs with
  | nil => simpa only [printArgs] using .ok hR.nil
  | cons c cs ih' =>
    simp only [printArgs]
    refine (ih c (by simp) _ _).bind fun a b h => ?_
    cases cs with
    | nil => exact .ok h
    | cons d ds =>
      exact (ih' fun c hc => ih c (by simp [hc])).bind fun a' b' h' =>
        .ok (hR.append h (hR.cons (hR.punct _ (by simp)) h'))

/-- Printing with two ways of rendering constants and variables. -/
theorem printTree_both {fc fc' : V → Str} {fv fv' : Str → Str} {fmt : V → Str} (hc : ∀ v, N (fmt v) → R [fc v] [fc' v])
    (hv : ∀ n, N n → R [fv n] [fv' n]) {t : Tree V} (ht : Texts fmt N t) :
    ∀ l r, Both R (printTree fc fv t l r) (printTree fc' fv' t l r) := by
  induction t using Tree.induct with
  | hc v tok =>
    intro l r
    cases ht with | const h => simpa only [printTree] using .ok (hc _ h)
  | hv n id tok =>
    intro l r
    cases ht with | var h => simpa only [printTree] using .ok (hv _ h)
  | ho o cs tok ih =>
    intro l r
    cases ht with | op hn hcs =>
    have ih : ∀ c ∈ cs, ∀ l r, Both R (printTree fc fv c l r) (printTree fc' fv' c l r) :=
      fun c hc => ih c hc (hcs c hc)
    have operand : ∀ c ∈ cs, ∀ (w l r : Bool),
        Both R (if w then Res.bind (printTree fc fv c false false) fun x => .ok (wrapIf true x) else printTree fc fv c l r)
          (if w then Res.bind (printTree fc' fv' c false false) fun x => .ok (wrapIf true x) else printTree fc' fv' c l r) := by
      intro c hc w l r
      cases w
      · exact ih c hc l r
      · exact (ih c hc _ _).bind fun a b h => .ok (hR.wrap true h)
    rw [printTree.eq_def fc fv (.op o cs tok), printTree.eq_def fc' fv' (.op o cs tok)]
    dsimp only
    cases o.placement with
    | «prefix» =>
      cases cs with
      | nil => exact .ub
      | cons c cs =>
        dsimp only
        split
        · exact .ub
        · exact (operand c (by simp) _ _ _).bind fun a b h => .ok (hR.wrap l (hR.cons (hR.name hn) h))
    | «postfix» =>
      cases cs with
      | nil => exact .ub
      | cons c cs => exact (operand c (by simp) _ _ _).bind fun a b h => .ok (hR.wrap r (hR.append h (hR.name hn)))
    | function =>
      dsimp only
      split
      · exact (printArgs_both hR ih).bind fun a b h =>
          .ok (hR.cons (hR.name hn) (hR.append (hR.cons (hR.punct _ (by simp)) h) (hR.punct _ (by simp))))
      · exact .ok (hR.name hn)
    | «infix» =>
      match cs, operand with
      | [], _ => exact .ub
      | [_], _ => exact .ub
      | a :: b :: _, operand =>
        exact (operand a (by simp) _ _ _).bind fun x x' h => (operand b (by simp) _ _ _).bind fun y y' h' =>
          .ok (hR.append (hR.append h (hR.infix hn)) h')
end

/-! ## Removing escape sequences -/

theorem seenFrom_plain {s : Str} (h : NoEscape s) (rest : Str) : seenFrom false (s ++ rest) = s ++ seenFrom false rest := by
  induction s with
  | nil => rfl
  | cons c s ih =>
    simp only [NoEscape, List.mem_cons, not_or] at h
    simp only [List.cons_append, seenFrom]
    rw [if_neg fun e => h.1 e.symm, ih h.2]

theorem seenFrom_escape {body : Str} (h : 'm' ∉ body) (rest : Str) :
    seenFrom false (Char.ofNat 27 :: body ++ 'm' :: rest) = seenFrom false rest := by
  simp only [List.cons_append, seenFrom, if_true]
  induction body with
  | nil => simp [seenFrom]
  | cons c s ih =>
    simp only [List.mem_cons, not_or] at h
    simp only [List.cons_append, seenFrom]
    have : (c != 'm') = true := by simpa using fun e => h.1 e.symm
    rw [this]; exact ih h.2

/-- Of the first text the second one is visible, whatever follows. -/
def Shows (a b : List Str) : Prop := ∀ rest, seenFrom false (a.flatten ++ rest) = b.flatten ++ seenFrom false rest

theorem shows_self {s : Str} (h : NoEscape s) : Shows [s] [s] := fun rest => by
  simpa using seenFrom_plain h rest

theorem shows_congruence : Congruence Shows NoEscape where
  nil := fun rest => rfl
  append := fun h h' rest => by
    simp only [List.flatten_append, List.append_assoc]
    rw [h, h']
  name := shows_self
  punct := by
    intro s hs
    simp only [List.mem_cons, List.not_mem_nil, or_false] at hs
    rcases hs with rfl | rfl | rfl | rfl <;> exact shows_self (by unfold NoEscape; decide)

theorem shows_colored {col s : Str} (hcol : ∃ body, 'm' ∉ body ∧ col = Char.ofNat 27 :: body ++ ['m']) (h : NoEscape s) :
    Shows [col ++ s ++ colReset] [s] := by
  obtain ⟨body, hb, rfl⟩ := hcol
  intro rest
  have e : colReset = Char.ofNat 27 :: "[0".toList ++ ['m'] := by decide +kernel
  have e1 : [Char.ofNat 27 :: body ++ ['m'] ++ s ++ colReset].flatten ++ rest =
      Char.ofNat 27 :: body ++ 'm' :: (s ++ (Char.ofNat 27 :: "[0".toList ++ 'm' :: rest)) := by
    rw [e]; simp
  rw [e1, seenFrom_escape hb, seenFrom_plain h, seenFrom_escape (by decide +kernel)]
  simp

theorem constColor_shape : ∃ body, 'm' ∉ body ∧ constColor = Char.ofNat 27 :: body ++ ['m'] :=
  ⟨"[1;33".toList, by decide +kernel, by decide +kernel⟩

theorem varColor_shape : ∃ body, 'm' ∉ body ∧ varColor = Char.ofNat 27 :: body ++ ['m'] :=
  ⟨"[1;36".toList, by decide +kernel, by decide +kernel⟩

/-! ## Width -/

theorem tidy_plain {s : Str} (h : Plain s) {rest} (hr : TidyLine true rest) (b : Bool) : TidyLine b (s ++ rest) := by
  obtain ⟨hne, h⟩ := h
  induction s generalizing b with
  | nil => exact absurd rfl hne
  | cons c s ih =>
    have hc := h c (by simp)
    refine .char ?_ ?_ (by omega) ?_
    · rintro rfl; exact absurd hc.1 (by decide)
    · rintro rfl; exact absurd hc.1 (by decide)
    · by_cases e : s = []
      · subst e; exact hr
      · exact ih true e fun c hc => h c (by simp [hc])

/-- No two escape sequences meet, whatever follows that does not start with one. -/
def Apart (a : List Str) : Prop := ∀ rest, TidyLine false rest → TidyLine true (a.flatten ++ rest)

theorem TidyLine.weaken {s} (h : TidyLine false s) : TidyLine true s := by
  cases h with
  | nil => exact .nil
  | char a b c d => exact .char a b c d

theorem apart_colored {body s : Str} (hb : ∀ c ∈ body, c ≠ 'm' ∧ c ≠ '\n') (h : Plain s) :
    Apart [Char.ofNat 27 :: body ++ ['m'] ++ s ++ colReset] := by
  intro rest hr
  have e : colReset = Char.ofNat 27 :: ("[0".toList ++ ['m']) := by decide +kernel
  have e1 : [Char.ofNat 27 :: body ++ ['m'] ++ s ++ colReset].flatten ++ rest =
      Char.ofNat 27 :: (body ++ 'm' :: (s ++ (Char.ofNat 27 :: ("[0".toList ++ 'm' :: rest)))) := by
    rw [e]; simp
  rw [e1]
  refine .escape hb (tidy_plain h (.escape ?_ hr) _)
  decide +kernel

theorem apart_const {fmt : V → Str} {v : V} (h : Plain (fmt v)) : Apart [colConst fmt v] := by
  have e : constColor = Char.ofNat 27 :: "[1;33".toList ++ ['m'] := by decide +kernel
  rw [colConst, e]
  exact apart_colored (by decide +kernel) h

theorem apart_var {n : Str} (h : Plain n) : Apart [colVar n] := by
  have e : varColor = Char.ofNat 27 :: "[1;36".toList ++ ['m'] := by decide +kernel
  rw [colVar, e]
  exact apart_colored (by decide +kernel) h

theorem plain_open : Plain openP := ⟨by decide, by decide⟩
theorem plain_close : Plain closeP := ⟨by decide, by decide⟩
theorem plain_comma : Plain commaP := ⟨by decide, by decide⟩
theorem plain_blank : Plain blankP := ⟨by decide, by decide⟩

theorem Apart.front {s a} (h : Plain s) (ha : Apart a) : Apart (s :: a) := fun rest hr => by
  simpa using tidy_plain h (ha rest hr) true

theorem Apart.back {s a} (ha : Apart a) (h : Plain s) : Apart (a ++ [s]) := fun rest hr => by
  simpa using ha _ (tidy_plain h (TidyLine.weaken hr) false)

theorem Apart.between {s a b} (ha : Apart a) (h : Plain s) (hb : Apart b) : Apart (a ++ s :: b) := fun rest hr => by
  simpa using ha _ (tidy_plain h (hb rest hr) false)

theorem Apart.single {s} (h : Plain s) : Apart [s] := fun rest hr => by
  simpa using tidy_plain h (TidyLine.weaken hr) true

theorem Apart.nil : Apart [] := fun _ hr => TidyLine.weaken hr

theorem Apart.wrap {a} (x : Bool) (ha : Apart a) : Apart (wrapIf x a) := by
  cases x
  · exact ha
  · exact (ha.front plain_open).back plain_close

theorem Apart.infix {o : Op} {a b} (ha : Apart a) (h : Plain o.name) (hb : Apart b) : Apart (a ++ infixPieces o ++ b) := by
  rw [List.append_assoc]
  unfold infixPieces
  split
  · exact ha.between plain_blank ((hb.front plain_blank).front h)
  · exact ha.between h hb

/-- The value of a call, if it returns, has a property. -/
def Gives {α : Type} (P : α → Prop) (x : Res α) : Prop := ∀ a, x = .ok a → P a

theorem Gives.ok {α : Type} {P : α → Prop} {a : α} (h : P a) : Gives P (.ok a) := by
  rintro b ⟨⟩; exact h

theorem Gives.bind {α β : Type} {P : α → Prop} {Q : β → Prop} {x : Res α} {f} (h : Gives P x)
    (hf : ∀ a, P a → Gives Q (f a)) : Gives Q (Res.bind x f) := by
  cases x with
  | ok a => exact hf a (h a rfl)
  | defect => rintro b ⟨⟩
  | ub => rintro b ⟨⟩

theorem Gives.ub {α : Type} {P : α → Prop} : Gives P .ub := by rintro b ⟨⟩

theorem printArgs_apart {fmt : V → Str} {cs : List (Tree V)}
    (ih : ∀ c ∈ cs, ∀ l r, Gives Apart (printTree (colConst fmt) colVar c l r)) :
    Gives Apart (printArgs (colConst fmt) colVar cs) := by
  induction cs with
  | nil => simpa only [printArgs] using .ok Apart.nil
  | cons c cs ih' =>
    simp only [printArgs]
    refine (ih c (by simp) _ _).bind fun a h => ?_
    cases cs with
    | nil => exact .ok h
    | cons d ds => exact (ih' fun c hc => ih c (by simp [hc])).bind fun a' h' => .ok (h.between plain_comma h')

theorem printTree_apart {fmt : V → Str} {t : Tree V} (ht : Texts fmt Plain t) :
    ∀ l r, Gives Apart (printTree (colConst fmt) colVar t l r) := by
  induction t using Tree.induct with
  | hc v tok =>
    intro l r
    cases ht with | const h => simpa only [printTree] using .ok (apart_const h)
  | hv n id tok =>
    intro l r
    cases ht with | var h => simpa only [printTree] using .ok (apart_var h)
  | ho o cs tok ih =>
    intro l r
    cases ht with | op hn hcs =>
    have ih : ∀ c ∈ cs, ∀ l r, Gives Apart (printTree (colConst fmt) colVar c l r) := fun c hc => ih c hc (hcs c hc)
    have operand : ∀ c ∈ cs, ∀ (w l r : Bool),
        Gives Apart (if w then Res.bind (printTree (colConst fmt) colVar c false false) fun x => .ok (wrapIf true x)
          else printTree (colConst fmt) colVar c l r) := by
      intro c hc w l r
      cases w
      · exact ih c hc l r
      · exact (ih c hc _ _).bind fun a h => .ok (h.wrap true)
    rw [printTree.eq_def _ _ (.op o cs tok)]
    dsimp only
    cases o.placement with
    | «prefix» =>
      cases cs with
      | nil => exact .ub
      | cons c cs =>
        dsimp only
        split
        · exact .ub
        · exact (operand c (by simp) _ _ _).bind fun a h => .ok ((h.front hn).wrap l)
    | «postfix» =>
      cases cs with
      | nil => exact .ub
      | cons c cs => exact (operand c (by simp) _ _ _).bind fun a h => .ok ((h.back hn).wrap r)
    | function =>
      dsimp only
      split
      · exact (printArgs_apart ih).bind fun a h => .ok (((h.front plain_open).back plain_close).front hn)
      · exact .ok (Apart.single hn)
    | «infix» =>
      match cs, operand with
      | [], _ => exact .ub
      | [_], _ => exact .ub
      | a :: b :: _, operand =>
        exact (operand a (by simp) _ _ _).bind fun x h => (operand b (by simp) _ _ _).bind fun y h' => .ok (h.infix hn h')

/-- Columns are the visible characters that begin a character. -/
theorem columnsFrom_seen (s : Str) : ∀ b, columnsFrom b s = ((seenFrom b s).filter fun c => !decide (128 ≤ c.toNat ∧ c.toNat < 192)).length := by
  induction s with
  | nil => intro b; cases b <;> rfl
  | cons c s ih =>
    intro b
    cases b
    · simp only [columnsFrom, seenFrom]
      split
      · exact ih _
      · rw [List.filter_cons, ih]
        by_cases h : 128 ≤ c.toNat ∧ c.toNat < 192
        · simp [h]
        · rw [if_neg h, if_pos (by simpa only [Bool.not_eq_true', decide_eq_false_iff_not] using h)]; simp; omega
    · simp only [columnsFrom, seenFrom]
      exact ih _

/-! ## Drawings -/

/-- Lines of the ancestors. -/
def tabs (vert : Nat) : (n i : Nat) → Str
  | 0, _ => []
  | n + 1, i => (if vert.testBit i then lineTab else emptyTab) ++ tabs vert n (i + 1)

theorem tabLoop_ok (vert : Nat) : ∀ n i, i + n ≤ 32 → tabLoop vert n i = .ok (tabs vert n i) := by
  intro n
  induction n with
  | zero => intro i _; rfl
  | succ n ih =>
    intro i h
    rw [tabLoop, if_neg (by omega), ih _ (by omega)]
    rfl

theorem tabLoop_nodefect (vert : Nat) : ∀ n i, tabLoop vert n i = .ub ∨ ∃ s, tabLoop vert n i = .ok s := by
  intro n
  induction n with
  | zero => intro i; exact .inr ⟨_, rfl⟩
  | succ n ih =>
    intro i
    rw [tabLoop]
    split
    · exact .inl rfl
    · rcases ih (i + 1) with h | ⟨s, h⟩ <;> rw [h]
      · exact .inl rfl
      · exact .inr ⟨_, rfl⟩

theorem tabs_append (vert : Nat) : ∀ n i,
    tabs vert (n + 1) i = tabs vert n i ++ if vert.testBit (i + n) then lineTab else emptyTab := by
  intro n
  induction n with
  | zero => intro i; simp [tabs]
  | succ n ih =>
    intro i
    rw [tabs, ih (i + 1), tabs, List.append_assoc, show i + 1 + n = i + (n + 1) by omega]

theorem tabs_congr {v w : Nat} : ∀ n i, (∀ j, i ≤ j → j < i + n → v.testBit j = w.testBit j) → tabs v n i = tabs w n i := by
  intro n
  induction n with
  | zero => intro i _; rfl
  | succ n ih =>
    intro i h
    rw [tabs, tabs, h i (by omega) (by omega), ih _ fun j h1 h2 => h j (by omega) (by omega)]

/-- What stands in front of a node. -/
def front (layer vert : Nat) : Str :=
  if layer = 0 then [] else tabs vert (layer - 1) 0 ++ if vert.testBit (layer - 1) then branchTab else endTab

theorem lead_ok {layer vert : Nat} (h : layer ≤ 32) : lead layer vert = .ok (front layer vert) := by
  unfold lead front
  split
  · rfl
  · rw [tabLoop_ok _ _ _ (by omega), Res.bind_ok, if_neg (by omega)]; rfl

theorem lead_ub {layer vert : Nat} (h : 33 ≤ layer) : lead layer vert = .ub := by
  unfold lead
  rw [if_neg (by omega)]
  rcases tabLoop_nodefect vert (layer - 1) 0 with e | ⟨s, e⟩ <;> rw [e]
  · rfl
  · rw [Res.bind_ok, if_pos (by omega)]

theorem hang_hang (a b c d : Str) (ls : List Str) (h : c = a) : hang a b ls = hang c b ls := by rw [h]

/-- Drawing of children in front of which something stands. -/
theorem map_hang (p f r : Str) (ls : List Str) : (hang f r ls).map (p ++ ·) = hang (p ++ f) (p ++ r) ls := by
  cases ls <;> simp [hang]

theorem picture_ne (fmt : V → Str) (t : Tree V) : picture fmt t ≠ [] := by
  cases t <;> simp [picture]

theorem end_eq : endTab = bytes "└── " := by decide +kernel
theorem branch_eq : branchTab = bytes "├── " := by decide +kernel
theorem line_eq : lineTab = bytes "│   " := by decide +kernel
theorem empty_eq : emptyTab = bytes "    " := by decide +kernel
theorem opColor_eq : opColor = bytes "\x1b[47m\x1b[22;30m" := by decide +kernel
theorem constColor_eq : constColor = bytes "\x1b[1;33m" := by decide +kernel
theorem varColor_eq : varColor = bytes "\x1b[1;36m" := by decide +kernel
theorem colReset_eq : colReset = bytes "\x1b[0m" := by decide +kernel

/-- Only lines of ancestors are noted. -/
def Noted (layer vert : Nat) : Prop := ∀ j, layer ≤ j → vert.testBit j = false

theorem pictures_cons (fmt : V → Str) (c : Tree V) (cs : List (Tree V)) :
    pictures fmt (c :: cs) = hang (if cs.isEmpty then endTab else branchTab) (if cs.isEmpty then emptyTab else lineTab)
      (picture fmt c) ++ pictures fmt cs := by
  cases cs with
  | nil => simp [pictures, end_eq, empty_eq]
  | cons d ds => simp [pictures, branch_eq, line_eq]

theorem testBit_or_shift (v n j : Nat) : (v ||| 1 <<< n).testBit j = (v.testBit j || decide (n = j)) := by
  rw [Nat.testBit_or, Nat.one_shiftLeft, Nat.testBit_two_pow]

theorem children_ok {fmt : V → Str} {cs : List (Tree V)} {layer vert : Nat} (hv : Noted layer vert)
    (hl : levelsList cs + layer ≤ 32)
    (ih : ∀ c ∈ cs, ∀ layer vert, Noted layer vert → levels c + layer ≤ 33 →
      drawTree fmt c layer vert = .ok (hang (front layer vert) (tabs vert layer 0) (picture fmt c))) :
    drawChildren fmt cs layer vert = .ok ((pictures fmt cs).map (tabs vert layer 0 ++ ·)) := by
  induction cs with
  | nil => simp [drawChildren, pictures]
  | cons c cs ih' =>
    simp only [levelsList] at hl
    have hpos : 1 ≤ levels c := by cases c <;> simp [levels]
    have rest := ih' (by omega) fun c hc => ih c (by simp [hc])
    simp only [drawChildren, rest]
    obtain ⟨v, hv1, hv2, hv3⟩ : ∃ v, childLines cs.isEmpty layer vert = .ok v ∧ v.testBit layer = !cs.isEmpty ∧
        ∀ j, j ≠ layer → v.testBit j = vert.testBit j := by
      unfold childLines
      split
      · rename_i h; exact ⟨vert, rfl, by rw [hv _ (Nat.le_refl _), h]; rfl, fun _ _ => rfl⟩
      · rename_i h
        rw [if_neg (by omega)]
        refine ⟨_, rfl, ?_, fun j hj => ?_⟩
        · rw [testBit_or_shift]; simpa using h
        · rw [testBit_or_shift]; simp [Ne.symm hj]
    have hn : Noted (layer + 1) v := fun j hj => by rw [hv3 j (by omega)]; exact hv j (by omega)
    rw [hv1, Res.bind_ok, Nat.mod_eq_of_lt (by omega), ih c (by simp) (layer + 1) v hn (by omega)]
    have et : tabs v layer 0 = tabs vert layer 0 := tabs_congr _ _ fun j _ h => hv3 j (by omega)
    simp only [Res.bind_ok, Res.pure_eq, Res.ok.injEq]
    rw [pictures_cons, List.map_append, map_hang, tabs_append, et, Nat.zero_add, hv2, front, if_neg (by omega)]
    simp only [Nat.add_sub_cancel, et, hv2]
    cases cs.isEmpty <;> rfl

/-- The drawing of a subtree that is not too deep. -/
theorem drawTree_ok {fmt : V → Str} (t : Tree V) : ∀ layer vert, Noted layer vert → levels t + layer ≤ 33 →
    drawTree fmt t layer vert = .ok (hang (front layer vert) (tabs vert layer 0) (picture fmt t)) := by
  induction t using Tree.induct with
  | hc v tok =>
    intro layer vert _ h
    simp only [levels] at h
    simp only [drawTree, lead_ok (show layer ≤ 32 by omega), Res.bind_ok, picture, hang, constColor_eq, colReset_eq]
    rfl
  | hv n id tok =>
    intro layer vert _ h
    simp only [levels] at h
    simp only [drawTree, lead_ok (show layer ≤ 32 by omega), Res.bind_ok, picture, hang, varColor_eq, colReset_eq]
    rfl
  | ho o cs tok ih =>
    intro layer vert hv h
    simp only [levels] at h
    simp only [drawTree, lead_ok (show layer ≤ 32 by omega), Res.bind_ok, picture, hang, opColor_eq, colReset_eq]
    rw [children_ok hv (by omega) ih]
    rfl

theorem children_ub {fmt : V → Str} {cs : List (Tree V)} {layer vert : Nat} (hl : layer ≤ 32)
    (h : 33 ≤ levelsList cs + layer) (hv : Noted layer vert)
    (ih : ∀ c ∈ cs, ∀ layer vert, Noted layer vert → layer ≤ 33 → 34 ≤ levels c + layer → drawTree fmt c layer vert = .ub) :
    drawChildren fmt cs layer vert = .ub := by
  induction cs with
  | nil => simp only [levelsList] at h; omega
  | cons c cs ih' =>
    simp only [levelsList] at h
    simp only [drawChildren]
    have key : childLines cs.isEmpty layer vert = .ub ∨
        ∃ v, childLines cs.isEmpty layer vert = .ok v ∧ Noted (layer + 1) v := by
      unfold childLines
      split
      · exact .inr ⟨_, rfl, fun j hj => hv j (by omega)⟩
      · split
        · exact .inl rfl
        · refine .inr ⟨_, rfl, fun j hj => ?_⟩
          rw [testBit_or_shift, hv j (by omega)]; simp; omega
    rcases key with e | ⟨v, e, hn⟩
    · rw [e]; rfl
    · rw [e, Res.bind_ok, Nat.mod_eq_of_lt (by omega)]
      by_cases hc : 34 ≤ levels c + (layer + 1)
      · rw [ih c (by simp) _ _ hn (by omega) hc]; rfl
      · rw [drawTree_ok c _ _ hn (by omega), Res.bind_ok, ih' (by omega) fun c hc => ih c (by simp [hc])]
        rfl

/-- A subtree that is too deep. -/
theorem drawTree_ub {fmt : V → Str} (t : Tree V) : ∀ layer vert, Noted layer vert → layer ≤ 33 → 34 ≤ levels t + layer →
    drawTree fmt t layer vert = .ub := by
  induction t using Tree.induct with
  | hc v tok =>
    intro layer vert _ _ h
    simp only [levels] at h
    simp only [drawTree, lead_ub (show 33 ≤ layer by omega), Res.bind_ub]
  | hv n id tok =>
    intro layer vert _ _ h
    simp only [levels] at h
    simp only [drawTree, lead_ub (show 33 ≤ layer by omega), Res.bind_ub]
  | ho o cs tok ih =>
    intro layer vert hv hl h
    simp only [levels] at h
    by_cases e : 33 ≤ layer
    · simp only [drawTree, lead_ub e, Res.bind_ub]
    · simp only [drawTree, lead_ok (show layer ≤ 32 by omega), Res.bind_ok]
      rw [children_ub (by omega) (by omega) hv ih]
      rfl

end Verif.DrawingLemmas
