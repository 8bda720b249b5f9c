import Verif.Model.Real

/-! # Evaluation with real numbers -/

namespace Verif
open Classical

section
variable {hist : List ℝ} {rnd fuel : ℕ} {o : Op}

theorem real_id (h : o.id = 0 ∨ o.id = 11) (a : ℝ) : evalOp realArith hist rnd fuel o [a] = .ok a := by
  rcases h with h | h <;> simp only [evalOp, h, arg1]

theorem real_add (h : o.id = 4) (a b : ℝ) : evalOp realArith hist rnd fuel o [a, b] = .ok (a + b) := by
  simp only [evalOp, h, arg2]; rfl

theorem real_sub (h : o.id = 5) (a b : ℝ) : evalOp realArith hist rnd fuel o [a, b] = .ok (a - b) := by
  simp only [evalOp, h, arg2]; rfl

theorem real_mul (h : o.id = 6) (a b : ℝ) : evalOp realArith hist rnd fuel o [a, b] = .ok (a * b) := by
  simp only [evalOp, h, arg2]; rfl

theorem real_div (h : o.id = 7) (a b : ℝ) : evalOp realArith hist rnd fuel o [a, b] =
    if b = 0 then .error (.code .divisionByZero) else .ok (a / b) := by
  by_cases hb : b = 0 <;> simp [evalOp, h, arg2, realArith, hb]

theorem real_pow (h : o.id = 8) (a b : ℝ) : evalOp realArith hist rnd fuel o [a, b] =
    if a = 0 ∧ b ≤ 0 then .error (.code .divisionByZero)
    else if a < 0 ∧ b < 1 then .error (.code .complexSolution)
    else .ok (a ^ b) := by
  by_cases h1 : a = 0 <;> by_cases h2 : b ≤ 0 <;> by_cases h3 : a < 0 <;> by_cases h4 : b < 1 <;>
    simp [evalOp, h, arg2, realArith, h1, h2, h3, h4]

theorem real_mod (h : o.id = 10) (a b : ℝ) :
    evalOp realArith hist rnd fuel o [a, b] = .ok (a - b * truncR (a / b)) := by
  simp only [evalOp, h, arg2]; rfl

theorem real_neg (h : o.id = 12) (a : ℝ) : evalOp realArith hist rnd fuel o [a] = .ok (-a) := by
  simp only [evalOp, h, arg1]; rfl

theorem real_root (h : o.id = 16) (a b : ℝ) : evalOp realArith hist rnd fuel o [a, b] =
    if 0 ≤ a then .ok (a ^ (1 / b)) else .error (.code .complexSolution) := by
  by_cases h1 : 0 ≤ a <;> simp [evalOp, h, arg2, realArith, h1]

theorem real_sqrt (h : o.id = 17) (a : ℝ) : evalOp realArith hist rnd fuel o [a] =
    if 0 ≤ a then .ok (Real.sqrt a) else .error (.code .complexSolution) := by
  by_cases h1 : 0 ≤ a <;> simp [evalOp, h, arg1, realArith, realFn, h1]

theorem real_sgn (h : o.id = 42) (a : ℝ) : evalOp realArith hist rnd fuel o [a] =
    .ok (if a < 0 then -1 else if 0 < a then 1 else 0) := by
  by_cases h1 : a < 0 <;> by_cases h2 : 0 < a <;> simp [evalOp, h, arg1, realArith, h1, h2]

theorem foldl_add (l : List ℝ) (s : ℝ) : l.foldl realArith.add s = s + l.sum := by
  induction l generalizing s with
  | nil => simp
  | cons a l ih =>
    simp only [List.foldl_cons, List.sum_cons, ← add_assoc]
    exact ih _

theorem foldl_mul (l : List ℝ) (s : ℝ) : l.foldl realArith.mul s = s * l.prod := by
  induction l generalizing s with
  | nil => simp
  | cons a l ih =>
    simp only [List.foldl_cons, List.prod_cons, ← mul_assoc]
    exact ih _

theorem realArith_sum (l : List ℝ) : realArith.sum l = l.sum := by
  unfold Arith.sum
  rw [foldl_add]
  simp [realArith]

theorem real_sum (h : o.id = 43) (l : List ℝ) : evalOp realArith hist rnd fuel o l = .ok l.sum := by
  simp only [evalOp, h, realArith_sum]

theorem real_prod (h : o.id = 44) (l : List ℝ) : evalOp realArith hist rnd fuel o l = .ok l.prod := by
  simp only [evalOp, h, Arith.prod, foldl_mul]
  simp [realArith]

theorem real_avg (h : o.id = 45) (l : List ℝ) (hl : l ≠ []) :
    evalOp realArith hist rnd fuel o l = .ok (l.sum / l.length) := by
  simp only [evalOp, h, realArith_sum]
  rw [if_neg (by simpa using hl)]
  simp [realArith]

theorem real_var (h : o.id = 51) (l : List ℝ) :
    evalOp realArith hist rnd fuel o l = .ok ((l.map fun x => (x - l.sum / l.length) ^ 2).sum / l.length) := by
  have key : ∀ (m : ℝ) (k : List ℝ) (s : ℝ), k.foldl (fun res a => realArith.add res
      (realArith.pow (realArith.sub a m) (realArith.ofInt 2))) s = s + (k.map fun x => (x - m) ^ 2).sum := by
    intro m k
    induction k with
    | nil => simp
    | cons a k ih =>
      intro s
      simp only [List.foldl_cons, List.map_cons, List.sum_cons, ← add_assoc]
      rw [ih]
      have : realArith.add s (realArith.pow (realArith.sub a m) (realArith.ofInt 2)) = s + (a - m) ^ 2 := by
        show s + (a - m) ^ (((2 : ℤ) : ℝ)) = _
        norm_num
      rw [this]
  have hn : realArith.ofInt l.length = (l.length : ℝ) := by simp [realArith]
  have h0 : realArith.ofInt 0 = 0 := by simp [realArith]
  simp only [evalOp, h, Arith.variance, realArith_sum, key, hn, h0, zero_add]
  rfl

end

end Verif
