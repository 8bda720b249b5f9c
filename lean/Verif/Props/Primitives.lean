import Verif.Model.TableLayout
import Verif.Model.Double
import Mathlib.Tactic.Linarith

/-!
# Primitives the models rest on

Facts on the smallest definitions, on which the theorems elsewhere do not depend in every case.
-/

namespace Verif.PrimitiveProps
open Verif Layout

/-! ## Numbers -/

/-- `<` of doubles is a strict order, total but for nan. -/
theorem C65_less (a b c : Dbl) : Dbl.lt a a = false ∧ (Dbl.lt a b = true → Dbl.lt b c = true → Dbl.lt a c = true) ∧
    (a ≠ .nan → b ≠ .nan → Dbl.lt a b = true ∨ a = b ∨ Dbl.lt b a = true) := by
  refine ⟨?_, ?_, ?_⟩
  · cases a with
    | fin q => simp [Dbl.lt]
    | inf s => cases s <;> rfl
    | nan => rfl
  · intro h1 h2
    rcases a with p | s | _ <;> rcases b with q | t | _ <;> rcases c with r | u | _ <;>
      simp_all [Dbl.lt]
    exact h1.trans h2
  · cases a with
    | nan => intro h; exact absurd rfl h
    | fin p =>
      cases b with
      | nan => intro _ h; exact absurd rfl h
      | fin q =>
        intro _ _
        simpa [Dbl.lt] using lt_trichotomy p q
      | inf t => cases t <;> simp [Dbl.lt]
    | inf s =>
      cases b with
      | nan => intro _ h; exact absurd rfl h
      | fin q => cases s <;> simp [Dbl.lt]
      | inf t => cases s <;> cases t <;> simp [Dbl.lt]

/-- A case with an infinity: it is above all finite numbers. -/
example : Dbl.lt (.fin 3) (.inf false) = true ∧ Dbl.lt (.inf false) (.inf false) = false := by decide

/-- `long` has 64 bits. -/
theorem C41_long : longMax = 2 ^ 63 - 1 := by unfold longMax; norm_num

/-! ## Tables -/

/-- As many lines are ended as there are lines, and the last one is. -/
theorem C69_newlines (ls : List Str) (h : ∀ l ∈ ls, '\n' ∉ l) :
    (output ls).count '\n' = ls.length ∧ (ls ≠ [] → (output ls).getLast? = some '\n') := by
  constructor
  · induction ls with
    | nil => rfl
    | cons l ls ih =>
      have h1 := List.count_eq_zero.2 (h l (by simp))
      have h2 := ih fun x hx => h x (by simp [hx])
      unfold output at h2 ⊢
      rw [List.flatMap_cons, List.count_append, List.count_append, h1, h2]
      simp; omega
  · intro hl
    obtain ⟨xs, x, rfl⟩ := List.eq_nil_or_concat ls |>.resolve_left hl
    simp [output]

example : (∀ l ∈ ["ab".toList, []], '\n' ∉ l) ∧ output ["ab".toList, []] = "ab\n\n".toList := by decide

/-- A negative width is a width at the left. -/
theorem C69_negative_width {w : Int} (h : w < 0) (s : Str) : padLeft w s = padRight (-w) s := by
  simp [padLeft, h, padRight]

example : padLeft (-3) ['a'] = "a  ".toList := by decide

/-- Cells that are covered by another one are aligned like it. -/
theorem C71_span_align (t : Table) (d : HAlign) (e : VAlign) {p q : Nat × Nat} (h : (t.cell p).parent = some q)
    (hq : (t.cell q).parent = none) (n : Nat) :
    getHAlign t d (n + 2) p = (t.cell q).hAlign.getD d ∧ getVAlign t e (n + 2) p = (t.cell q).vAlign.getD e := by
  simp [getHAlign, getVAlign, h, hq]

/-- The cell right of one that spans two columns. -/
example : (match setSpan 2 1 empty with
    | .ok t => some ((t.cell (0, 1)).parent, (t.cell (0, 0)).parent)
    | _ => none) = some (some (0, 0), none) := by decide +kernel

end Verif.PrimitiveProps
