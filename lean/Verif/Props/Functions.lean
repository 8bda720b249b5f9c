import Verif.Lemmas.Real
import Verif.Spec.Functions
import Verif.Props.Evaluation
import Mathlib.Analysis.Real.Pi.Bounds
import Mathlib.Analysis.Complex.ExponentialBounds
import Mathlib.NumberTheory.Real.GoldenRatio

/-! # C66: operators denote the functions their descriptions promise -/

namespace Verif.FunctionProps
open Verif EvaluationProps

theorem eval_id {name : String} {pl : Placement} {o : Op} {k : ℕ} (h : Builtin name pl o)
    (hk : (Ctx.findOp builtin name.toList pl).map (·.2.id) = some k) (hist : List ℝ) (rnd fuel : ℕ) (args : List ℝ) :
    evalOp realArith hist rnd fuel o args = evalOp realArith hist rnd fuel { o with id := k } args := by
  have := h.id hk
  unfold evalOp
  rw [this]

/-- **C66.** In real arithmetic every operator evaluates to the value of the function it
denotes. -/
theorem C66_denotes (name : String) (pl : Placement) (args : List ℝ) (v : ℝ) (h : Denotes name pl args v) (o : Op)
    (ho : Builtin name pl o) (hist : List ℝ) (rnd fuel : ℕ) : evalOp realArith hist rnd fuel o args = .ok v := by
  cases h with
  | id => rw [eval_id ho (k := 0) (by decide +kernel)]; rfl
  | add => rw [eval_id ho (k := 4) (by decide +kernel)]; rfl
  | sub => rw [eval_id ho (k := 5) (by decide +kernel)]; rfl
  | mul => rw [eval_id ho (k := 6) (by decide +kernel)]; rfl
  | div hy hz =>
    rw [real_div (ho.id (by decide +kernel)), if_neg hy, ← hz, mul_div_cancel_right₀ _ hy]
  | pow hx => rw [real_pow (ho.id (by decide +kernel)), if_neg (fun h => hx.ne' h.1), if_neg (fun h => lt_asymm hx h.1)]
  | powZero hy =>
    rw [real_pow (ho.id (by decide +kernel)), if_neg (fun h => not_le.mpr hy h.2), if_neg (fun h => lt_irrefl _ h.1),
      Real.zero_rpow hy.ne']
  | @powNat x n hn =>
    have h1 : (1 : ℝ) ≤ n := by exact_mod_cast hn
    rw [real_pow (ho.id (by decide +kernel)), if_neg (fun h => by linarith [h.2]), if_neg (fun h => by linarith [h.2]),
      Real.rpow_natCast]
  | @mod x y v hy hz hs hk =>
    obtain ⟨k, hk⟩ := hk
    rw [real_mod (ho.id (by decide +kernel))]
    have hq : x / y = k + v / y := by rw [hk]; field_simp
    have hv : |v / y| < 1 := by rw [abs_div, div_lt_one (abs_pos.mpr hy)]; exact hz
    rw [abs_lt] at hv
    have key : truncR (x / y) = k := by
      unfold truncR
      have hs' : 0 ≤ (v / y) * (x / y) := by
        have : v / y * (x / y) = v * x / (y * y) := by field_simp
        rw [this]
        exact div_nonneg hs (mul_self_nonneg y)
      split
      · rename_i h0
        rw [Int.floor_eq_iff]
        have : 0 ≤ v / y ∨ x / y = 0 := by
          rcases eq_or_lt_of_le h0 with h | h
          · exact .inr h.symm
          · exact .inl (nonneg_of_mul_nonneg_left hs' h)
        rcases this with h | h
        · constructor <;> linarith [hv.2]
        · rw [h] at hq ⊢
          have h1 : (k : ℝ) < 1 := by linarith [hv.1]
          have h2 : (-1 : ℝ) < k := by linarith [hv.2]
          have h1' : k < 1 := by exact_mod_cast h1
          have h2' : -1 < k := by exact_mod_cast h2
          have : k = 0 := by omega
          rw [this]; norm_num
      · rename_i h0
        rw [Int.ceil_eq_iff]
        have : v / y ≤ 0 := by
          by_contra h
          have := mul_neg_of_pos_of_neg (not_le.mp h) (not_le.mp h0)
          linarith
        constructor <;> linarith [hv.1]
    rw [key]
    congr 1
    linarith
  | plus => rw [eval_id ho (k := 11) (by decide +kernel)]; rfl
  | neg => rw [eval_id ho (k := 12) (by decide +kernel)]; rfl
  | percent =>
    rw [eval_id ho (k := 14) (by decide +kernel)]
    simp [evalOp, arg1, realArith]
  | exp => rw [eval_id ho (k := 15) (by decide +kernel)]; rfl
  | @root x n y hy hn hx =>
    have hx0 : 0 ≤ x := by rw [← hx]; exact (Real.rpow_pos_of_pos hy n).le
    rw [real_root (ho.id (by decide +kernel)), if_pos hx0, ← hx, ← Real.rpow_mul hy.le]
    simp [hn]
  | @sqrt x y hy hx =>
    have hx0 : 0 ≤ x := by rw [← hx]; exact mul_nonneg hy hy
    rw [real_sqrt (ho.id (by decide +kernel)), if_pos hx0, ← hx, Real.sqrt_mul_self hy]
  | @log x n y hn hn1 hx =>
    rw [eval_id ho (k := 18) (by decide +kernel)]
    simp only [evalOp, arg2, realArith, realFn]
    rw [← hx, Real.log_rpow hn, mul_div_cancel_right₀]
    exact Real.log_ne_zero_of_pos_of_ne_one hn hn1
  | ln hx =>
    rw [eval_id ho (k := 19) (by decide +kernel)]
    simp only [evalOp, arg1, realArith, realFn]
    rw [← hx, Real.log_exp]
  | ld hx =>
    rw [eval_id ho (k := 20) (by decide +kernel)]
    simp only [evalOp, arg1, realArith, realFn]
    rw [← hx, Real.logb_rpow (by norm_num) (by norm_num)]
  | lg hx =>
    rw [eval_id ho (k := 21) (by decide +kernel)]
    simp only [evalOp, arg1, realArith, realFn]
    rw [← hx, Real.logb_rpow (by norm_num) (by norm_num)]
  | sin => rw [eval_id ho (k := 22) (by decide +kernel)]; rfl
  | cos => rw [eval_id ho (k := 23) (by decide +kernel)]; rfl
  | tan hc hy =>
    rw [eval_id ho (k := 24) (by decide +kernel)]
    simp only [evalOp, arg1, realArith, realFn]
    rw [Real.tan_eq_sin_div_cos, ← hy, mul_div_cancel_right₀ _ hc]
  | asin h1 h2 h3 =>
    rw [eval_id ho (k := 25) (by decide +kernel)]
    simp only [evalOp, arg1, realArith, realFn]
    rw [← h3, Real.arcsin_sin h1 h2]
  | acos h1 h2 h3 =>
    rw [eval_id ho (k := 26) (by decide +kernel)]
    simp only [evalOp, arg1, realArith, realFn]
    rw [← h3, Real.arccos_cos h1 h2]
  | @atan x v h1 h2 h3 =>
    rw [eval_id ho (k := 27) (by decide +kernel)]
    simp only [evalOp, arg1, realArith, realFn]
    have hc : Real.cos v ≠ 0 := (Real.cos_pos_of_mem_Ioo ⟨h1, h2⟩).ne'
    have : x = Real.tan v := by rw [Real.tan_eq_sin_div_cos, h3, mul_div_cancel_right₀ _ hc]
    rw [this, Real.arctan_tan h1 h2]
  | sinh =>
    rw [eval_id ho (k := 28) (by decide +kernel)]
    simp only [evalOp, arg1, realArith, realFn]
    rw [Real.sinh_eq]
  | cosh =>
    rw [eval_id ho (k := 29) (by decide +kernel)]
    simp only [evalOp, arg1, realArith, realFn]
    rw [Real.cosh_eq]
  | tanh =>
    rw [eval_id ho (k := 30) (by decide +kernel)]
    simp only [evalOp, arg1, realArith, realFn]
    rw [Real.tanh_eq_sinh_div_cosh, Real.sinh_eq, Real.cosh_eq, div_div_div_cancel_right₀ (by norm_num)]
  | @asinh x v h =>
    rw [eval_id ho (k := 31) (by decide +kernel)]
    simp only [evalOp, arg1, realArith, realFn]
    have : x = Real.sinh v := by rw [Real.sinh_eq]; linarith
    rw [this, Real.arsinh_sinh]
  | @acosh x v h0 h =>
    rw [eval_id ho (k := 32) (by decide +kernel)]
    simp only [evalOp, arg1, realArith, realFn]
    have : x = Real.cosh v := by rw [Real.cosh_eq]; linarith
    rw [this, Real.arcosh_cosh h0]
  | @atanh x v h =>
    rw [eval_id ho (k := 33) (by decide +kernel)]
    simp only [evalOp, arg1, realArith, realFn]
    have hp : Real.exp v + Real.exp (-v) ≠ 0 := by positivity
    have : x = Real.tanh v := by
      rw [Real.tanh_eq_sinh_div_cosh, Real.sinh_eq, Real.cosh_eq, div_div_div_cancel_right₀ (by norm_num), h,
        mul_div_cancel_right₀ _ hp]
    rw [this, Real.artanh_tanh]
  | abs => rw [eval_id ho (k := 36) (by decide +kernel)]; rfl
  | ceil h1 h2 =>
    rw [eval_id ho (k := 37) (by decide +kernel)]
    simp only [evalOp, arg1, realArith, realFn]
    rw [Int.ceil_eq_iff.mpr ⟨by linarith, h1⟩]
  | floor h1 h2 =>
    rw [eval_id ho (k := 38) (by decide +kernel)]
    simp only [evalOp, arg1, realArith, realFn]
    rw [Int.floor_eq_iff.mpr ⟨h1, h2⟩]
  | @round x n h =>
    rw [eval_id ho (k := 39) (by decide +kernel)]
    simp only [evalOp, arg1, realArith, realFn, roundR]
    rw [abs_lt] at h
    have e : (if 0 ≤ x then ⌊x + 1 / 2⌋ else ⌈x - 1 / 2⌉) = n := by
      split
      · rw [Int.floor_eq_iff]; constructor <;> linarith [h.1, h.2]
      · rw [Int.ceil_eq_iff]; constructor <;> linarith [h.1, h.2]
    rw [e]
  | @roundHalf n h =>
    rw [eval_id ho (k := 39) (by decide +kernel)]
    simp only [evalOp, arg1, realArith, realFn, roundR]
    have h0 : (0 : ℝ) ≤ n := by exact_mod_cast h
    rw [if_pos (by linarith)]
    have : ⌊(n : ℝ) + 1 / 2 + 1 / 2⌋ = n + 1 := by rw [Int.floor_eq_iff]; push_cast; constructor <;> linarith
    rw [this]
  | @roundHalfNeg n h =>
    rw [eval_id ho (k := 39) (by decide +kernel)]
    simp only [evalOp, arg1, realArith, realFn, roundR]
    have h0 : (n : ℝ) ≤ 0 := by exact_mod_cast h
    rw [if_neg (by linarith)]
    have : ⌈(n : ℝ) - 1 / 2 - 1 / 2⌉ = n - 1 := by rw [Int.ceil_eq_iff]; push_cast; constructor <;> linarith
    rw [this]
  | trunc h0 h1 h2 =>
    rw [eval_id ho (k := 40) (by decide +kernel)]
    simp only [evalOp, arg1, realArith, realFn, truncR]
    rw [if_pos h0, Int.floor_eq_iff.mpr ⟨h1, h2⟩]
  | @truncNeg x n h0 h1 h2 =>
    rw [eval_id ho (k := 40) (by decide +kernel)]
    simp only [evalOp, arg1, realArith, realFn, truncR]
    have hc := Int.ceil_eq_iff.mpr ⟨by linarith, h1⟩
    split
    · rename_i h3
      have : x = 0 := le_antisymm h0 h3
      subst this
      simp at hc ⊢
      exact_mod_cast hc
    · rw [hc]
  | @frac x y h0 h1 hn =>
    rw [eval_id ho (k := 41) (by decide +kernel)]
    simp only [evalOp, arg1, realArith, realFn]
    obtain ⟨n, hn⟩ := hn
    have : ⌊x⌋ = n := by rw [Int.floor_eq_iff]; constructor <;> linarith
    rw [this, hn]
    congr 1; ring
  | sgnPos h => rw [real_sgn (ho.id (by decide +kernel)), if_neg (lt_asymm h), if_pos h]
  | sgnZero => rw [real_sgn (ho.id (by decide +kernel))]; simp
  | sgnNeg h => rw [real_sgn (ho.id (by decide +kernel)), if_pos h]
  | sum => exact real_sum (ho.id (by decide +kernel)) _
  | prod => exact real_prod (ho.id (by decide +kernel)) _
  | @avg l m h1 h2 =>
    have hlen : (args.length : ℝ) ≠ 0 := by
      have := List.length_pos_of_ne_nil h1
      have : args.length ≠ 0 := by omega
      exact_mod_cast this
    rw [real_avg (ho.id (by decide +kernel)) _ h1, ← h2, mul_div_cancel_right₀ _ hlen]
  | @var l m v h1 h2 h3 =>
    have hlen : (args.length : ℝ) ≠ 0 := by
      have := List.length_pos_of_ne_nil h1
      have : args.length ≠ 0 := by omega
      exact_mod_cast this
    rw [real_var (ho.id (by decide +kernel)), ← h2, mul_div_cancel_right₀ _ hlen, ← h3, mul_div_cancel_right₀ _ hlen]
  | gamma => rw [eval_id ho (k := 50) (by decide +kernel)]; rfl
  | clight =>
    rw [eval_id ho (k := 55) (by decide +kernel)]
    simp [evalOp, realArith]
  | csound =>
    rw [eval_id ho (k := 56) (by decide +kernel)]
    simp only [evalOp, realArith]
    norm_num

/-- For instance `atan(1)` is π/4, and `log(8,2)` is 3. -/
example : Denotes "atan" .function [1] (Real.pi / 4) ∧ Denotes "log" .function [8, 2] 3 := by
  constructor
  · refine .atan (by linarith [Real.pi_pos]) (by linarith [Real.pi_pos]) ?_
    rw [Real.sin_pi_div_four, Real.cos_pi_div_four, one_mul]
  · exact .log (by norm_num) (by norm_num) (by norm_num)

/-- All these operators exist. -/
theorem C66_exists (name : String) (pl : Placement) (args : List ℝ) (v : ℝ) (h : Denotes name pl args v) :
    ∃ o, Builtin name pl o := by
  cases h <;> exact builtin_exists (by decide +kernel)

/-- The function denoted is unique. -/
theorem C66_unique (name : String) (pl : Placement) (args : List ℝ) (v w : ℝ) (hv : Denotes name pl args v)
    (hw : Denotes name pl args w) : v = w := by
  obtain ⟨o, ho⟩ := C66_exists name pl args v hv
  have h1 := C66_denotes name pl args v hv o ho [] 0 0
  rw [C66_denotes name pl args w hw o ho [] 0 0] at h1
  exact ((Except.ok.injEq _ _).mp h1).symm

/-- **C66**, constants: they are within 10^-11 of π and the golden ratio, and (as far as
the library knows the number) 3 10^-10 of e. -/
theorem C66_constants (o₁ o₂ o₃ : Op) (h₁ : Builtin "pi" .function o₁) (h₂ : Builtin "e" .function o₂)
    (h₃ : Builtin "phi" .function o₃) (hist : List ℝ) (rnd fuel : ℕ) :
    (∃ v, evalOp realArith hist rnd fuel o₁ [] = .ok v ∧ |v - Real.pi| < 10⁻¹ ^ 11) ∧
    (∃ v, evalOp realArith hist rnd fuel o₂ [] = .ok v ∧ |v - Real.exp 1| < 3 * 10⁻¹ ^ 10) ∧
    (∃ v, evalOp realArith hist rnd fuel o₃ [] = .ok v ∧ |v - Real.goldenRatio| < 10⁻¹ ^ 11) := by
  refine ⟨⟨314159265359 / 100000000000, ?_, ?_⟩, ⟨271828182846 / 100000000000, ?_, ?_⟩,
    ⟨161803398874 / 100000000000, ?_, ?_⟩⟩
  · simp only [evalOp, h₁.id (k := 52) (by decide +kernel), realArith]; norm_num
  · rw [abs_lt]; constructor <;> norm_num <;> linarith [Real.pi_gt_d20, Real.pi_lt_d20]
  · simp only [evalOp, h₂.id (k := 53) (by decide +kernel), realArith]; norm_num
  · rw [abs_lt]; constructor <;> norm_num <;> linarith [Real.exp_one_gt_d9, Real.exp_one_lt_d9]
  · simp only [evalOp, h₃.id (k := 54) (by decide +kernel), realArith]; norm_num
  · have h1 : (2.236067977498 : ℝ) < Real.sqrt 5 := Real.lt_sqrt_of_sq_lt (by norm_num)
    have h2 : Real.sqrt 5 < 2.2360679775 := (Real.sqrt_lt' (by norm_num)).mpr (by norm_num)
    unfold Real.goldenRatio
    rw [abs_lt]; constructor <;> norm_num <;> linarith

/-- **C66**, undefined values: a quotient by zero and even roots of negative numbers are
reported. -/
theorem C66_errors (o₁ o₂ o₃ : Op) (h₁ : Builtin "/" .infix o₁) (h₂ : Builtin "sqrt" .function o₂)
    (h₃ : Builtin "root" .function o₃) (hist : List ℝ) (rnd fuel : ℕ) (x y : ℝ) (hy : y < 0) :
    evalOp realArith hist rnd fuel o₁ [x, 0] = .error (.code .divisionByZero) ∧
    evalOp realArith hist rnd fuel o₂ [y] = .error (.code .complexSolution) ∧
    evalOp realArith hist rnd fuel o₃ [y, x] = .error (.code .complexSolution) :=
  ⟨by rw [real_div (h₁.id (by decide +kernel)), if_pos rfl],
    by rw [real_sqrt (h₂.id (by decide +kernel)), if_neg (not_le.mpr hy)],
    by rw [real_root (h₃.id (by decide +kernel)), if_neg (not_le.mpr hy)]⟩

/-- **C66**, random numbers: for integers `a < b` whose difference is a long, `rand(a,b)` is
an integer from `a` on and less than `b`. -/
theorem C66_rand_partial (o : Op) (ho : Builtin "rand" .function o) (hist : List ℝ) (rnd fuel : ℕ) (a b : ℤ) (hab : a < b)
    (hl : b - a ≤ 2 ^ 63 - 1) :
    ∃ n : ℤ, a ≤ n ∧ n < b ∧ evalOp realArith hist rnd fuel o [(a : ℝ), (b : ℝ)] = .ok n := by
  have ht (n : ℤ) : truncR n = n := by simp [truncR]
  have hlong : realArith.toLong ((b : ℝ) - a) = some (b - a) := by
    have : ((b : ℝ) - a) = ((b - a : ℤ) : ℝ) := by push_cast; ring
    rw [this]
    show toRangeR (-longMax - 1) longMax _ = _
    simp only [toRangeR, ht]
    rw [if_pos]
    exact ⟨by unfold longMax; omega, by unfold longMax; omega⟩
  refine ⟨(rnd : ℤ) % (b - a) + a, ?_, ?_, ?_⟩
  · have := Int.emod_nonneg rnd (show b - a ≠ 0 by omega); omega
  · have := Int.emod_lt_of_pos rnd (show 0 < b - a by omega); omega
  · simp only [evalOp, ho.id (k := 48) (by decide +kernel), arg2]
    have e1 (n : ℤ) : realArith.fn .trunc n = n := by
      show ((truncR n : ℤ) : ℝ) = n
      rw [ht]
    have e2 : realArith.sub (b : ℝ) a = b - a := rfl
    unfold Arith.randomBetween
    simp only [e1, e2, hlong]
    rw [if_neg (by omega)]
    show Except.ok (((_ : ℤ) : ℝ) + a) = _
    push_cast
    rfl

/-- **C66** fails for empty ranges: `rand(5,5)` is -1. -/
theorem C66_rand_empty (o : Op) (ho : Builtin "rand" .function o) (hist : List ℝ) (rnd fuel : ℕ) :
    evalOp realArith hist rnd fuel o [5, 5] = .ok (-1) := by
  have ht : truncR 5 = 5 := by simp [truncR]
  simp only [evalOp, ho.id (k := 48) (by decide +kernel), arg2]
  have e1 : realArith.fn .trunc 5 = 5 := by
    show ((truncR 5 : ℤ) : ℝ) = 5
    rw [ht]; norm_num
  have e2 : realArith.sub (5 : ℝ) 5 = 0 := by show (5 : ℝ) - 5 = 0; norm_num
  have hlong : realArith.toLong 0 = some 0 := by
    show toRangeR (-longMax - 1) longMax _ = _
    simp [toRangeR, truncR, longMax]
  unfold Arith.randomBetween
  simp only [e1, e2, hlong]
  rw [if_pos (by omega)]
  show Except.ok (((-1 : ℤ) : ℝ)) = _
  norm_num

end Verif.FunctionProps
