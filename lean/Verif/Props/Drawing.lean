import Verif.Lemmas.Drawing
import Verif.Lemmas.LayoutText
import Verif.Model.ArithContext

/-!
# Coloured text (C85) and drawings of trees (C86)
-/

namespace Verif.DrawingProps
open Drawing DrawingSpec DrawingLemmas Layout LayoutSpec
variable {V : Type}

/-! ## C85 -/

/-- **C85.** Colours change nothing but the colours: if no text or name has an escape character, printing with colours
returns iff printing without does, and what is visible of the coloured text is the text without colours. -/
theorem C85_same_text (fmt : V → Str) (t : Tree V) (ht : Texts fmt NoEscape t) :
    (∀ s, treeToStr fmt t = .ok s → ∃ s', treeToStrColor fmt t = .ok s' ∧ seen s' = s) ∧
    (∀ s', treeToStrColor fmt t = .ok s' → treeToStr fmt t = .ok (seen s')) := by
  have key := printTree_both shows_congruence (fc := colConst fmt) (fc' := fmt) (fv := colVar) (fv' := id)
    (fun v h => shows_colored constColor_shape h) (fun n h => shows_colored varColor_shape h) ht false false
  unfold treeToStr treeToStrColor
  generalize printTree (colConst fmt) colVar t false false = x at *
  generalize printTree fmt id t false false = y at *
  cases key with
  | @ok a b h =>
    have e : seen a.flatten = b.flatten := by
      have := h []
      simpa [seen, seenFrom] using this
    exact ⟨fun s hs => ⟨_, rfl, by cases hs; exact e⟩, fun s' hs => by cases hs; rw [e]; rfl⟩
  | defect => exact ⟨fun s hs => (by cases hs), fun s hs => (by cases hs)⟩
  | ub => exact ⟨fun s hs => (by cases hs), fun s hs => (by cases hs)⟩

/-- **C85**, the width: the table module finds for the coloured text the width of the text without colours.  (Escape
sequences that follow each other directly would be counted wrongly, see C54; in coloured expressions there are none.) -/
theorem C85_width (fmt : V → Str) (t : Tree V) (ht : Texts fmt Plain t) (s : Str) (hs : treeToStrColor fmt t = .ok s) :
    TidyLine true s ∧ ∃ p, treeToStr fmt t = .ok p ∧ consoleStrlen s = .ok p.length ∧ ∀ c ∈ p, 32 ≤ c.toNat ∧ c.toNat < 127 := by
  have hne : Texts fmt NoEscape t := by
    clear hs
    induction ht with
    | const h => exact .const fun e => absurd (h.2 _ e).1 (by decide)
    | var h => exact .var fun e => absurd (h.2 _ e).1 (by decide)
    | op h _ ih => exact .op (fun e => absurd (h.2 _ e).1 (by decide)) ih
  have hp := (C85_same_text fmt t hne).2 s hs
  have tidy : TidyLine true s := by
    have key := printTree_apart ht false false
    unfold treeToStrColor at hs
    generalize printTree (colConst fmt) colVar t false false = x at *
    cases x with
    | ok a =>
      cases hs
      simpa using key a rfl [] .nil
    | defect => cases hs
    | ub => cases hs
  have printable : ∀ c ∈ seen s, 32 ≤ c.toNat ∧ c.toNat < 127 := by
    have h := printTree_both (R := fun a b => (∀ s ∈ a, ∀ c ∈ s, 32 ≤ c.toNat ∧ c.toNat < 127) ∧ a = b) (N := Plain)
      { nil := ⟨by simp, rfl⟩
        append := fun h h' => ⟨fun s hs => (List.mem_append.mp hs).elim (h.1 s) (h'.1 s), by rw [h.2, h'.2]⟩
        name := fun h => ⟨fun s hs => by cases List.mem_singleton.mp hs; exact h.2, rfl⟩
        punct := fun s hs => ⟨fun x hx => by
          cases List.mem_singleton.mp hx
          simp only [List.mem_cons, List.not_mem_nil, or_false] at hs
          rcases hs with rfl | rfl | rfl | rfl
          · exact plain_open.2
          · exact plain_close.2
          · exact plain_comma.2
          · exact plain_blank.2, rfl⟩ }
      (fc := fmt) (fc' := fmt) (fv := id) (fv' := id)
      (fun v h => ⟨fun s hs => by cases List.mem_singleton.mp hs; exact h.2, rfl⟩)
      (fun v h => ⟨fun s hs => by cases List.mem_singleton.mp hs; exact h.2, rfl⟩) ht false false
    unfold treeToStr at hp
    generalize printTree fmt id t false false = x at *
    cases h with
    | @ok a b h =>
      have hp : Res.ok a.flatten = Res.ok (seen s) := hp
      injection hp with hp
      rw [← hp]
      intro c hc
      obtain ⟨x, hx, hc⟩ := List.mem_flatten.mp hc
      exact h.1 x hx c hc
    | defect => cases hp
    | ub => cases hp
  refine ⟨tidy, _, hp, ?_, printable⟩
  have := consoleStrlen_tidy tidy (.inl rfl : LineEnd [])
  rw [List.append_nil] at this
  rw [this, LayoutSpec.columns, columnsFrom_seen]
  congr 2
  refine List.filter_eq_self.mpr fun c hc => ?_
  have := printable c hc
  simp only [Bool.not_eq_true', decide_eq_false_iff_not]
  omega

/-- An operator of the calculator. -/
def the (name : String) : Op := (arithOps.find? fun o => o.name == name.toList).getD (Op.getConstant name.toList)

/-- `x+2*sin(y)` -/
def example1 : Tree Nat :=
  .op (the "+") [.var "x".toList 0 0, .op (the "*") [.const 2 0, .op (the "sin") [.var "y".toList 0 0] 0] 0] 0

/-- How the constants of the examples are rendered. -/
def fmt1 (n : Nat) : Str := [Char.ofNat (48 + n)]

/-- The hypotheses hold for an expression with constants, variables and a function. -/
theorem example1_plain : Texts fmt1 Plain example1 := by
  have p : ∀ s : Str, (s ≠ [] ∧ ∀ c ∈ s, 32 ≤ c.toNat ∧ c.toNat < 127) → Plain s := fun _ h => h
  refine .op (p _ (by decide +kernel)) fun c hc => ?_
  simp only [List.mem_cons, List.not_mem_nil, or_false] at hc
  rcases hc with rfl | rfl
  · exact .var (p _ (by decide +kernel))
  · refine .op (p _ (by decide +kernel)) fun c hc => ?_
    simp only [List.mem_cons, List.not_mem_nil, or_false] at hc
    rcases hc with rfl | rfl
    · exact .const (p _ (by decide +kernel))
    · refine .op (p _ (by decide +kernel)) fun c hc => ?_
      cases List.mem_singleton.mp hc
      exact .var (p _ (by decide +kernel))

example : treeToStr fmt1 example1 = .ok "x+2*sin(y)".toList := by decide +kernel

example : treeToStrColor fmt1 example1 =
    .ok "\x1b[1;36mx\x1b[0m+\x1b[1;33m2\x1b[0m*sin(\x1b[1;36my\x1b[0m)".toList := by decide +kernel

/-! ## C86 -/

/-- **C86** (partial: up to 33 levels).  A tree is drawn as described by `picture`: below each node the drawings of its
children, connected by a line that ends at the last child. -/
theorem C86_picture_partial (fmt : V → Str) (t : Tree V) (h : levels t ≤ 33) :
    printTreeVisually fmt t = .ok (picture fmt t) := by
  have := drawTree_ok (fmt := fmt) t 0 0 (fun j _ => Nat.zero_testBit j) (by omega)
  rw [printTreeVisually, this]
  cases hp : picture fmt t with
  | nil => rfl
  | cons l ls => simp [hang, front, tabs]

/-- **C86**, the violation: each tree with more levels leads to a shift by more than 31 bits. -/
theorem C86_deep (fmt : V → Str) (t : Tree V) (h : 33 < levels t) : printTreeVisually fmt t = .ub :=
  drawTree_ub t 0 0 (fun j _ => Nat.zero_testBit j) (by omega) (by omega)

/-- `n` signs in front of `x`. -/
def signs : Nat → Tree Nat
  | 0 => .var "x".toList 0 0
  | n + 1 => .op (the "-") [signs n] 0

/-- 33 signs are too much. -/
theorem C86_witness : printTreeVisually fmt1 (signs 33) = .ub := C86_deep _ _ (by decide +kernel)

example : printTreeVisually fmt1 (signs 32) = .ok (picture fmt1 (signs 32)) := C86_picture_partial _ _ (by decide +kernel)

/-- `max(x+2,y)*3` with all kinds of lines. -/
def example2 : Tree Nat :=
  .op (the "*") [.op (the "max") [.op (the "+") [.var "x".toList 0 0, .const 2 0] 0, .var "y".toList 0 0] 0, .const 3 0] 0

example : (picture fmt1 example2).map seen =
    ["*", "├── max", "│   ├── +", "│   │   ├── x", "│   │   └── 2", "│   └── y", "└── 3"].map bytes := by decide +kernel

end Verif.DrawingProps
