import Verif.Lemmas.RuleTexts
import Verif.Lemmas.RuleSimp
import Mathlib.Tactic.NormNum
import Mathlib.Tactic.Ring
import Mathlib.Tactic.Tauto

/-!
# Values of the operators in rules, as functions
-/

namespace Verif.Rules
open Verif Topology
variable {I : Interp}

/-! ## Notation for terms -/

namespace P
abbrev n (q : ℚ) : Pat := .num q
abbrev v (s : String) : Pat := .v s
abbrev drv (p : Pat) (z : String) : Pat := .deriv p z
abbrev dollar (a : Pat) : Pat := .app 0 [a]
abbrev add (a b : Pat) : Pat := .app 4 [a, b]
abbrev minus (a b : Pat) : Pat := .app 5 [a, b]
abbrev mul (a b : Pat) : Pat := .app 6 [a, b]
abbrev div (a b : Pat) : Pat := .app 7 [a, b]
abbrev pow (a b : Pat) : Pat := .app 8 [a, b]
abbrev mod (a b : Pat) : Pat := .app 10 [a, b]
abbrev pos (a : Pat) : Pat := .app 11 [a]
abbrev neg (a : Pat) : Pat := .app 12 [a]
abbrev pct (a : Pat) : Pat := .app 14 [a]
abbrev exp (a : Pat) : Pat := .app 15 [a]
abbrev root (a b : Pat) : Pat := .app 16 [a, b]
abbrev sqrt (a : Pat) : Pat := .app 17 [a]
abbrev log (a b : Pat) : Pat := .app 18 [a, b]
abbrev ln (a : Pat) : Pat := .app 19 [a]
abbrev sin (a : Pat) : Pat := .app 22 [a]
abbrev cos (a : Pat) : Pat := .app 23 [a]
abbrev tan (a : Pat) : Pat := .app 24 [a]
abbrev asin (a : Pat) : Pat := .app 25 [a]
abbrev acos (a : Pat) : Pat := .app 26 [a]
abbrev atan (a : Pat) : Pat := .app 27 [a]
abbrev max (l : List Pat) : Pat := .app 34 l
abbrev min (l : List Pat) : Pat := .app 35 l
abbrev sum (l : List Pat) : Pat := .app 43 l
abbrev prod (l : List Pat) : Pat := .app 44 l
abbrev avg (l : List Pat) : Pat := .app 45 l
abbrev e : Pat := .app 53 []
abbrev count (l : List Pat) : Pat := .app 73 l
end P

/-! ## Values -/

theorem fnD_of {k : Nat} {l : List ℝ} {v : ℝ} (h : I.fn k l v) : fnD I k l := ⟨v, h⟩

theorem fnV_of (hI : I.Right) {k : Nat} {l : List ℝ} {v : ℝ} (h : I.fn k l v) : fnV I k l = v :=
  ((fn_iff hI).1 h).2.symm

section
variable [hI : Fact I.Right] (x y : ℝ) (l : List ℝ)

@[rule_eqs] theorem fnD_dollar : fnD I 0 [x] ↔ True := iff_true_intro (fnD_of ((fn_dollar hI.1 x _).2 rfl))
@[rule_eqs] theorem fnV_dollar : fnV I 0 [x] = x := fnV_of hI.1 ((fn_dollar hI.1 x _).2 rfl)
@[rule_eqs] theorem fnD_pos : fnD I 11 [x] ↔ True := iff_true_intro (fnD_of ((fn_plus hI.1 x _).2 rfl))
@[rule_eqs] theorem fnV_pos : fnV I 11 [x] = x := fnV_of hI.1 ((fn_plus hI.1 x _).2 rfl)
@[rule_eqs] theorem fnD_neg : fnD I 12 [x] ↔ True := iff_true_intro (fnD_of ((fn_neg hI.1 x _).2 rfl))
@[rule_eqs] theorem fnV_neg : fnV I 12 [x] = -x := fnV_of hI.1 ((fn_neg hI.1 x _).2 rfl)
@[rule_eqs] theorem fnD_pct : fnD I 14 [x] ↔ True := iff_true_intro (fnD_of ((fn_percent hI.1 x _).2 rfl))
@[rule_eqs] theorem fnV_pct : fnV I 14 [x] = x / 100 := fnV_of hI.1 ((fn_percent hI.1 x _).2 rfl)
@[rule_eqs] theorem fnD_add : fnD I 4 [x, y] ↔ True := iff_true_intro (fnD_of ((fn_add hI.1 x y _).2 rfl))
@[rule_eqs] theorem fnV_add : fnV I 4 [x, y] = x + y := fnV_of hI.1 ((fn_add hI.1 x y _).2 rfl)
@[rule_eqs] theorem fnD_sub : fnD I 5 [x, y] ↔ True := iff_true_intro (fnD_of ((fn_sub hI.1 x y _).2 rfl))
@[rule_eqs] theorem fnV_sub : fnV I 5 [x, y] = x - y := fnV_of hI.1 ((fn_sub hI.1 x y _).2 rfl)
@[rule_eqs] theorem fnD_mul : fnD I 6 [x, y] ↔ True := iff_true_intro (fnD_of ((fn_mul hI.1 x y _).2 rfl))
@[rule_eqs] theorem fnV_mul : fnV I 6 [x, y] = x * y := fnV_of hI.1 ((fn_mul hI.1 x y _).2 rfl)
@[rule_eqs] theorem fnD_exp : fnD I 15 [x] ↔ True := iff_true_intro (fnD_of ((fn_exp hI.1 x _).2 rfl))
@[rule_eqs] theorem fnV_exp : fnV I 15 [x] = Real.exp x := fnV_of hI.1 ((fn_exp hI.1 x _).2 rfl)
@[rule_eqs] theorem fnD_sin : fnD I 22 [x] ↔ True := iff_true_intro (fnD_of ((fn_sin hI.1 x _).2 rfl))
@[rule_eqs] theorem fnV_sin : fnV I 22 [x] = Real.sin x := fnV_of hI.1 ((fn_sin hI.1 x _).2 rfl)
@[rule_eqs] theorem fnD_cos : fnD I 23 [x] ↔ True := iff_true_intro (fnD_of ((fn_cos hI.1 x _).2 rfl))
@[rule_eqs] theorem fnV_cos : fnV I 23 [x] = Real.cos x := fnV_of hI.1 ((fn_cos hI.1 x _).2 rfl)
@[rule_eqs] theorem fnD_atan : fnD I 27 [x] ↔ True := iff_true_intro (fnD_of ((fn_atan hI.1 x _).2 rfl))
@[rule_eqs] theorem fnV_atan : fnV I 27 [x] = Real.arctan x := fnV_of hI.1 ((fn_atan hI.1 x _).2 rfl)
@[rule_eqs] theorem fnD_sum : fnD I 43 l ↔ True := iff_true_intro (fnD_of ((fn_sum hI.1 _ l).2 rfl))
@[rule_eqs] theorem fnV_sum : fnV I 43 l = l.sum := fnV_of hI.1 ((fn_sum hI.1 _ l).2 rfl)
@[rule_eqs] theorem fnD_prod : fnD I 44 l ↔ True := iff_true_intro (fnD_of ((fn_prod hI.1 _ l).2 rfl))
@[rule_eqs] theorem fnV_prod : fnV I 44 l = l.prod := fnV_of hI.1 ((fn_prod hI.1 _ l).2 rfl)
@[rule_eqs] theorem fnD_count : fnD I 73 l ↔ True := iff_true_intro (fnD_of ((fn_count hI.1 _ l).2 rfl))
@[rule_eqs] theorem fnV_count : fnV I 73 l = l.length := fnV_of hI.1 ((fn_count hI.1 _ l).2 rfl)
@[rule_eqs] theorem fnD_e : fnD I 53 [] ↔ True := iff_true_intro (fnD_of ((fn_e hI.1 _).2 rfl))
@[rule_eqs] theorem fnV_e : fnV I 53 [] = Real.exp 1 := fnV_of hI.1 ((fn_e hI.1 _).2 rfl)

@[rule_eqs] theorem fnD_div : fnD I 7 [x, y] ↔ y ≠ 0 := by
  simp only [fnD, fn_div hI.1, exists_and_left, exists_eq, and_true]
@[rule_eqs] theorem fnV_div : fnV I 7 [x, y] = x / y := by
  by_cases hy : y = 0
  · unfold fnV
    rw [dif_neg, hy, div_zero]
    simp [fn_div hI.1, hy]
  · exact fnV_of hI.1 ((fn_div hI.1 x y _).2 ⟨hy, rfl⟩)
@[rule_eqs] theorem fnD_pow : fnD I 8 [x, y] ↔ PowOk x y := by
  simp only [fnD, fn_pow hI.1, power_iff, exists_and_left, exists_eq, and_true]
@[rule_eqs low] theorem fnV_pow (h : PowOk x y) : fnV I 8 [x, y] = x ^ y :=
  fnV_of hI.1 ((fn_pow hI.1 x y _).2 (power_iff.2 ⟨h, rfl⟩))
@[rule_eqs] theorem fnD_sqrt : fnD I 17 [x] ↔ 0 ≤ x := by
  simp only [fnD, fn_sqrt hI.1, exists_and_left, exists_eq, and_true]
theorem fnV_sqrt (h : 0 ≤ x) : fnV I 17 [x] = √x := fnV_of hI.1 ((fn_sqrt hI.1 x _).2 ⟨h, rfl⟩)
@[rule_eqs] theorem fnD_ln : fnD I 19 [x] ↔ 0 < x := by
  simp only [fnD, fn_ln hI.1, exists_and_left, exists_eq, and_true]
@[rule_eqs] theorem fnV_ln (h : 0 < x) : fnV I 19 [x] = Real.log x := fnV_of hI.1 ((fn_ln hI.1 x _).2 ⟨h, rfl⟩)
@[rule_eqs] theorem fnD_tan : fnD I 24 [x] ↔ Real.cos x ≠ 0 := by
  simp only [fnD, fn_tan hI.1, exists_and_left, exists_eq, and_true]
theorem fnV_tan (h : Real.cos x ≠ 0) : fnV I 24 [x] = Real.sin x / Real.cos x :=
  fnV_of hI.1 ((fn_tan hI.1 x _).2 ⟨h, rfl⟩)
@[rule_eqs] theorem fnD_asin : fnD I 25 [x] ↔ -1 ≤ x ∧ x ≤ 1 := by
  simp only [fnD, fn_asin hI.1, exists_and_left, exists_eq, and_true]
@[rule_eqs] theorem fnV_asin (h : -1 ≤ x ∧ x ≤ 1) : fnV I 25 [x] = Real.arcsin x :=
  fnV_of hI.1 ((fn_asin hI.1 x _).2 ⟨h.1, h.2, rfl⟩)
@[rule_eqs] theorem fnD_acos : fnD I 26 [x] ↔ -1 ≤ x ∧ x ≤ 1 := by
  simp only [fnD, fn_acos hI.1, exists_and_left, exists_eq, and_true]
@[rule_eqs] theorem fnV_acos (h : -1 ≤ x ∧ x ≤ 1) : fnV I 26 [x] = Real.arccos x :=
  fnV_of hI.1 ((fn_acos hI.1 x _).2 ⟨h.1, h.2, rfl⟩)
@[rule_eqs] theorem fnD_avg : fnD I 45 l ↔ l ≠ [] := by
  simp only [fnD, fn_avg hI.1, exists_and_left, exists_eq, and_true]
@[rule_eqs] theorem fnV_avg (h : l ≠ []) : fnV I 45 l = l.sum / l.length := fnV_of hI.1 ((fn_avg hI.1 _ l).2 ⟨h, rfl⟩)

/-- Where roots are defined. -/
def RootOk (x y : ℝ) : Prop := 0 < x ∧ y ≠ 0 ∨ x = 0 ∧ 0 < y

theorem fn_root_iff {v : ℝ} : I.fn 16 [x, y] v ↔ RootOk x y ∧ v = x ^ (1 / y) := by
  rw [fn_root hI.1]
  unfold RootOk
  constructor
  · rintro (⟨h1, h2, rfl⟩ | ⟨rfl, h1, rfl⟩)
    · refine ⟨.inl ⟨Real.rpow_pos_of_pos h1 y, h2⟩, ?_⟩
      rw [← Real.rpow_mul h1.le, mul_one_div_cancel h2, Real.rpow_one]
    · exact ⟨.inr ⟨rfl, h1⟩, (Real.zero_rpow (one_div_ne_zero h1.ne')).symm⟩
  · rintro ⟨⟨h1, h2⟩ | ⟨rfl, h1⟩, rfl⟩
    · refine .inl ⟨Real.rpow_pos_of_pos h1 _, h2, ?_⟩
      rw [← Real.rpow_mul h1.le, one_div_mul_cancel h2, Real.rpow_one]
    · exact .inr ⟨rfl, h1, Real.zero_rpow (one_div_ne_zero h1.ne')⟩

@[rule_eqs] theorem fnD_root : fnD I 16 [x, y] ↔ RootOk x y := by
  simp only [fnD, fn_root_iff, exists_and_left, exists_eq, and_true]
@[rule_eqs] theorem fnV_root (h : RootOk x y) : fnV I 16 [x, y] = x ^ (1 / y) :=
  fnV_of hI.1 ((fn_root_iff x y).2 ⟨h, rfl⟩)

/-- Where logarithms are defined. -/
def LogOk (x y : ℝ) : Prop := 0 < y ∧ y ≠ 1 ∧ 0 < x

theorem fn_log_iff {v : ℝ} : I.fn 18 [x, y] v ↔ LogOk x y ∧ v = Real.log x / Real.log y := by
  rw [fn_log hI.1]
  unfold LogOk
  constructor
  · rintro ⟨h1, h2, rfl⟩
    refine ⟨⟨h1, h2, Real.rpow_pos_of_pos h1 v⟩, ?_⟩
    rw [Real.log_rpow h1, mul_div_assoc, div_self (Real.log_ne_zero_of_pos_of_ne_one h1 h2), mul_one]
  · rintro ⟨⟨h1, h2, h3⟩, rfl⟩
    refine ⟨h1, h2, ?_⟩
    rw [Real.rpow_def_of_pos h1, mul_div_assoc', mul_comm, mul_div_assoc,
      div_self (Real.log_ne_zero_of_pos_of_ne_one h1 h2), mul_one, Real.exp_log h3]

@[rule_eqs] theorem fnD_log : fnD I 18 [x, y] ↔ LogOk x y := by
  simp only [fnD, fn_log_iff, exists_and_left, exists_eq, and_true]
@[rule_eqs] theorem fnV_log (h : LogOk x y) : fnV I 18 [x, y] = Real.log x / Real.log y :=
  fnV_of hI.1 ((fn_log_iff x y).2 ⟨h, rfl⟩)

end

/-! ## Powers with special exponents -/

theorem _root_.Verif.PowOk.of_int {x : ℝ} (h : x ≠ 0) (n : ℤ) : PowOk x n := by
  rcases lt_trichotomy x 0 with h' | h' | h'
  · exact .inr (.inr ⟨h', n, rfl⟩)
  · exact absurd h' h
  · exact .inl h'

theorem _root_.Verif.PowOk.ne {x y : ℝ} (h : PowOk x y) (hy : y ≤ 0) : x ≠ 0 := by
  rcases h with h | ⟨_, h⟩ | h
  · exact h.ne'
  · exact absurd h (not_lt.2 hy)
  · exact h.1.ne

@[rule_eqs] theorem powOk_two (x : ℝ) : PowOk x 2 ↔ True := by
  refine iff_true_intro ?_
  by_cases h : x = 0
  · exact .inr (.inl ⟨h, by norm_num⟩)
  · simpa using PowOk.of_int h 2

@[rule_eqs] theorem powOk_one (x : ℝ) : PowOk x 1 ↔ True := by
  refine iff_true_intro ?_
  by_cases h : x = 0
  · exact .inr (.inl ⟨h, by norm_num⟩)
  · simpa using PowOk.of_int h 1

@[rule_eqs] theorem powOk_zero (x : ℝ) : PowOk x 0 ↔ x ≠ 0 :=
  ⟨fun h => Verif.PowOk.ne h le_rfl, fun h => by simpa using PowOk.of_int h 0⟩

@[rule_eqs] theorem powOk_neg_one (x : ℝ) : PowOk x (-1) ↔ x ≠ 0 :=
  ⟨fun h => Verif.PowOk.ne h (by norm_num), fun h => by simpa using PowOk.of_int h (-1)⟩

@[rule_eqs] theorem powOk_neg_two (x : ℝ) : PowOk x (-2) ↔ x ≠ 0 :=
  ⟨fun h => Verif.PowOk.ne h (by norm_num), fun h => by simpa using PowOk.of_int h (-2)⟩

@[rule_eqs] theorem powOk_exp (x y : ℝ) : PowOk (Real.exp x) y ↔ True := iff_true_intro (.inl (Real.exp_pos x))

theorem _root_.Verif.PowOk.pos {x y : ℝ} (h : 0 < x) : PowOk x y := .inl h

theorem half_ne_int (n : ℤ) : (1 / 2 : ℝ) ≠ n := by
  intro h
  have h' : (1 : ℝ) = 2 * n := by linarith
  have h'' : (1 : ℤ) = 2 * n := by exact_mod_cast h'
  omega

@[rule_eqs] theorem powOk_half (x : ℝ) : PowOk x (1 / 2) ↔ 0 ≤ x := by
  constructor
  · rintro (h | h | ⟨_, n, h⟩)
    · exact h.le
    · exact h.1.ge
    · exact absurd h (half_ne_int n)
  · intro h
    rcases h.eq_or_lt with h | h
    · exact .inr (.inl ⟨h.symm, by norm_num⟩)
    · exact .inl h

theorem fnV_undef {k : Nat} {l : List ℝ} (h : ¬ fnD I k l) : fnV I k l = 0 := dif_neg h

section
variable [hI : Fact I.Right] (x y : ℝ)

@[rule_eqs] theorem fnV_pow_two : fnV I 8 [x, 2] = x ^ 2 := by
  rw [fnV_pow x 2 ((powOk_two x).2 trivial), Real.rpow_two]
@[rule_eqs] theorem fnV_pow_one : fnV I 8 [x, 1] = x := by
  rw [fnV_pow x 1 ((powOk_one x).2 trivial), Real.rpow_one]
@[rule_eqs] theorem fnV_pow_neg_one : fnV I 8 [x, -1] = x⁻¹ := by
  by_cases h : x = 0
  · rw [fnV_undef, h, inv_zero]
    rw [fnD_pow, powOk_neg_one]; simpa using h
  · rw [fnV_pow x (-1) ((powOk_neg_one x).2 h), Real.rpow_neg_one]
@[rule_eqs] theorem fnV_pow_neg_two : fnV I 8 [x, -2] = (x ^ 2)⁻¹ := by
  by_cases h : x = 0
  · rw [fnV_undef, h]
    · norm_num
    · rw [fnD_pow, powOk_neg_two]; simpa using h
  · rw [fnV_pow x (-2) ((powOk_neg_two x).2 h)]
    have := Real.rpow_intCast x (-2)
    rw [show ((-2 : ℤ) : ℝ) = -2 by norm_num] at this
    rw [this, zpow_neg]; norm_cast
@[rule_eqs] theorem fnV_pow_e : fnV I 8 [Real.exp 1, y] = Real.exp y := by
  rw [fnV_pow _ y ((powOk_exp 1 y).2 trivial), Real.exp_one_rpow]
@[rule_eqs] theorem fnV_pow_half : fnV I 8 [x, 1 / 2] = √x := by
  by_cases h : 0 ≤ x
  · rw [fnV_pow x _ ((powOk_half x).2 h), Real.sqrt_eq_rpow]
  · rw [fnV_undef, Real.sqrt_eq_zero_of_nonpos (not_le.1 h).le]
    rw [fnD_pow, powOk_half]; exact h
theorem fnV_pow_zero (h : x ≠ 0) : fnV I 8 [x, 0] = 1 := by
  rw [fnV_pow x _ ((powOk_zero x).2 h), Real.rpow_zero]
/-- The square root and its value outside of the domain. -/
@[rule_eqs] theorem fnV_sqrt' : fnV I 17 [x] = √x := by
  by_cases h : 0 ≤ x
  · exact fnV_sqrt x h
  · rw [fnV_undef, Real.sqrt_eq_zero_of_nonpos (not_le.1 h).le]
    rw [fnD_sqrt]; exact h
@[rule_eqs] theorem fnV_tan' : fnV I 24 [x] = Real.sin x / Real.cos x := by
  by_cases h : Real.cos x = 0
  · rw [fnV_undef, h, div_zero]
    rw [fnD_tan]; simpa using h
  · exact fnV_tan x h
end

/-! ## Laws of powers, roots, and of the largest and smallest number -/

theorem _root_.Verif.PowOk.add {x y z : ℝ} (h : PowOk x y) (h' : PowOk x z) : PowOk x (y + z) := by
  rcases h with h | ⟨h, h1⟩ | ⟨h, n, rfl⟩
  · exact .inl h
  · rcases h' with h' | ⟨_, h2⟩ | ⟨h', _⟩
    · exact .inl h'
    · exact .inr (.inl ⟨h, add_pos h1 h2⟩)
    · exact absurd h h'.ne
  · rcases h' with h' | ⟨h', _⟩ | ⟨_, m, rfl⟩
    · exact absurd h h'.not_gt
    · exact absurd h' h.ne
    · exact .inr (.inr ⟨h, n + m, by push_cast; rfl⟩)

theorem _root_.Verif.PowOk.rpow_add {x y z : ℝ} (h : PowOk x y) (h' : PowOk x z) : x ^ (y + z) = x ^ y * x ^ z := by
  rcases h with h | ⟨rfl, h1⟩ | ⟨h, n, rfl⟩
  · exact Real.rpow_add h y z
  · rcases h' with h' | ⟨_, h2⟩ | ⟨h', _⟩
    · exact absurd h' (lt_irrefl _)
    · rw [Real.zero_rpow h1.ne', Real.zero_rpow (add_pos h1 h2).ne', zero_mul]
    · exact absurd h' (lt_irrefl _)
  · rcases h' with h' | ⟨h', _⟩ | ⟨_, m, rfl⟩
    · exact absurd h h'.not_gt
    · exact absurd h' h.ne
    · rw [← Int.cast_add, Real.rpow_intCast, Real.rpow_intCast, Real.rpow_intCast, zpow_add₀ h.ne]

theorem _root_.Verif.PowOk.int_or {x y : ℝ} (h : PowOk x y) : 0 < x ∨ (x = 0 ∧ 0 < y) ∨ (x < 0 ∧ ∃ n : ℤ, y = n) := h

theorem _root_.Verif.PowOk.mul {x y z : ℝ} (h : PowOk x z) (h' : PowOk y z) : PowOk (x * y) z := by
  rcases h with h | ⟨rfl, h1⟩ | ⟨h, n, rfl⟩
  · rcases h' with h' | ⟨rfl, h2⟩ | ⟨h', m, h2⟩
    · exact .inl (mul_pos h h')
    · exact .inr (.inl ⟨mul_zero x, h2⟩)
    · exact .inr (.inr ⟨mul_neg_of_pos_of_neg h h', m, h2⟩)
  · exact .inr (.inl ⟨zero_mul y, h1⟩)
  · rcases h' with h' | ⟨rfl, h2⟩ | ⟨h', m, h2⟩
    · exact .inr (.inr ⟨mul_neg_of_neg_of_pos h h', n, rfl⟩)
    · exact .inr (.inl ⟨mul_zero x, h2⟩)
    · exact .inl (mul_pos_of_neg_of_neg h h')

theorem _root_.Verif.PowOk.mul_rpow {x y z : ℝ} (h : PowOk x z) (h' : PowOk y z) : (x * y) ^ z = x ^ z * y ^ z := by
  rcases h with h | ⟨rfl, h1⟩ | ⟨h, n, rfl⟩
  · rcases h' with h' | ⟨rfl, h2⟩ | ⟨h', m, rfl⟩
    · exact Real.mul_rpow h.le h'.le
    · rw [mul_zero, Real.zero_rpow h2.ne', mul_zero]
    · rw [Real.rpow_intCast, Real.rpow_intCast, Real.rpow_intCast, mul_zpow]
  · rw [zero_mul, Real.zero_rpow h1.ne', zero_mul]
  · rw [Real.rpow_intCast, Real.rpow_intCast, Real.rpow_intCast, mul_zpow]

theorem _root_.Verif.PowOk.neg_even {x : ℝ} {k : ℤ} (h : PowOk (-x) (2 * k)) : PowOk x (2 * k) ∧ x ^ (2 * k : ℝ) = (-x) ^ (2 * k : ℝ) := by
  have e : (2 * k : ℝ) = ((2 * k : ℤ) : ℝ) := by push_cast; rfl
  rw [e] at h ⊢
  refine ⟨?_, by rw [Real.rpow_intCast, Real.rpow_intCast, Even.neg_zpow (even_two_mul k)]⟩
  by_cases hx : x = 0
  · rcases h with h | h | h
    · rw [hx] at h; simp at h
    · exact .inr (.inl ⟨hx, h.2⟩)
    · rw [hx] at h; simp at h
  · exact .of_int hx _

theorem RootOk.ne {x y : ℝ} (h : RootOk x y) : y ≠ 0 := by
  rcases h with h | h
  · exact h.2
  · exact h.2.ne'

theorem RootOk.nonneg {x y : ℝ} (h : RootOk x y) : 0 ≤ x := by
  rcases h with h | h
  · exact h.1.le
  · exact h.1.ge

theorem RootOk.pow {x y : ℝ} (h : RootOk x y) : PowOk x (1 / y) := by
  rcases h with h | h
  · exact .inl h.1
  · exact .inr (.inl ⟨h.1, one_div_pos.2 h.2⟩)

theorem fn_congr (hI : I.Right) {k : Nat} {l l' : List ℝ} (h : ∀ v, I.fn k l v ↔ I.fn k l' v) :
    (fnD I k l ↔ fnD I k l') ∧ fnV I k l = fnV I k l' := by
  have hd : fnD I k l ↔ fnD I k l' := exists_congr h
  refine ⟨hd, ?_⟩
  by_cases hl : fnD I k l
  · exact (fnV_of hI ((h _).2 ((fn_iff hI).2 ⟨hd.1 hl, rfl⟩)))
  · rw [fnV_undef hl, fnV_undef (fun h' => hl (hd.2 h'))]

theorem dup_iff {a b c : List ℝ} {x v : ℝ} (P : ℝ → ℝ → Prop) :
    (v ∈ a ++ x :: (b ++ x :: c) ∧ ∀ y ∈ a ++ x :: (b ++ x :: c), P v y) ↔
    (v ∈ a ++ x :: (b ++ c) ∧ ∀ y ∈ a ++ x :: (b ++ c), P v y) := by
  have : ∀ y, y ∈ a ++ x :: (b ++ x :: c) ↔ y ∈ a ++ x :: (b ++ c) := by
    intro y; simp only [List.mem_append, List.mem_cons]; tauto
  simp only [this]

theorem dup_min (hI : I.Right) (a b c : List ℝ) (x : ℝ) :
    (fnD I 35 (a ++ x :: (b ++ x :: c)) ↔ fnD I 35 (a ++ x :: (b ++ c))) ∧
    fnV I 35 (a ++ x :: (b ++ x :: c)) = fnV I 35 (a ++ x :: (b ++ c)) :=
  fn_congr hI fun v => by rw [fn_min hI, fn_min hI]; exact dup_iff fun v y => v ≤ y

theorem dup_max (hI : I.Right) (a b c : List ℝ) (x : ℝ) :
    (fnD I 34 (a ++ x :: (b ++ x :: c)) ↔ fnD I 34 (a ++ x :: (b ++ c))) ∧
    fnV I 34 (a ++ x :: (b ++ x :: c)) = fnV I 34 (a ++ x :: (b ++ c)) :=
  fn_congr hI fun v => by rw [fn_max hI, fn_max hI]; exact dup_iff fun v y => y ≤ v

attribute [rule_eqs] Rat.cast_ofNat Rat.cast_one Rat.cast_zero Rat.cast_div

@[rule_eqs] theorem PD_num (σ : String → List (Tree ℝ)) (q : ℚ) (env : Str → ℝ) : PD I σ (.num q) env ↔ True := by
  simp only [PD]
@[rule_eqs] theorem PV_num (σ : String → List (Tree ℝ)) (q : ℚ) (env : Str → ℝ) : PV I σ (.num q) env = [(q : ℝ)] := by
  simp only [PV]
@[rule_eqs] theorem PD_v (σ : String → List (Tree ℝ)) (n : String) (env : Str → ℝ) :
    PD I σ (.v n) env ↔ ∀ t ∈ σ n, D I t env := by
  simp only [PD]
@[rule_eqs] theorem PV_v (σ : String → List (Tree ℝ)) (n : String) (env : Str → ℝ) :
    PV I σ (.v n) env = (σ n).map (va I · env) := by
  simp only [PV]
@[rule_eqs] theorem PD_app (σ : String → List (Tree ℝ)) (k : Nat) (ps : List Pat) (env : Str → ℝ) :
    PD I σ (.app k ps) env ↔ PDs I σ ps env ∧ fnD I k (PVs I σ ps env) := by
  simp only [PD]
@[rule_eqs] theorem PV_app (σ : String → List (Tree ℝ)) (k : Nat) (ps : List Pat) (env : Str → ℝ) :
    PV I σ (.app k ps) env = [fnV I k (PVs I σ ps env)] := by
  simp only [PV]

attribute [rule_eqs] PDs PVs List.map_cons List.map_nil List.cons_append List.nil_append List.append_nil
  List.append_assoc List.sum_append List.sum_cons List.sum_nil List.prod_append List.prod_cons List.prod_nil
  List.length_append List.length_cons List.length_nil true_and and_true List.mem_singleton forall_eq
  add_zero mul_one   List.mem_cons List.not_mem_nil forall_eq_or_imp IsEmpty.forall_iff implies_true

end Verif.Rules
