import Verif.Model.Evaluation
import Mathlib.Analysis.SpecialFunctions.Pow.Real
import Mathlib.Analysis.SpecialFunctions.Log.Base
import Mathlib.Analysis.SpecialFunctions.Arsinh
import Mathlib.Analysis.SpecialFunctions.Arcosh
import Mathlib.Analysis.SpecialFunctions.Artanh
import Mathlib.Analysis.SpecialFunctions.Trigonometric.Inverse
import Mathlib.Analysis.SpecialFunctions.Trigonometric.Arctan
import Mathlib.Analysis.SpecialFunctions.Gamma.Basic

/-!
# Real arithmetic

The arithmetic of arith_evaluation.c with real numbers in place of doubles and the
functions of math.h in place of their approximations.
-/

namespace Verif
open Classical

/-- Towards zero. -/
noncomputable def truncR (x : ℝ) : ℤ := if 0 ≤ x then ⌊x⌋ else ⌈x⌉

/-- Half away from zero. -/
noncomputable def roundR (x : ℝ) : ℤ := if 0 ≤ x then ⌊x + 1 / 2⌋ else ⌈x - 1 / 2⌉

/-- Conversion to an integer type, `none` out of its range. -/
noncomputable def toRangeR (lo hi : ℤ) (x : ℝ) : Option ℤ :=
  if lo ≤ truncR x ∧ truncR x ≤ hi then some (truncR x) else none

/-- The functions of math.h, where these are defined (elsewhere, any number). -/
noncomputable def realFn : MathFn → ℝ → ℝ
  | .exp => Real.exp
  | .sqrt => Real.sqrt
  | .log => Real.log
  | .log2 => Real.logb 2
  | .log10 => Real.logb 10
  | .sin => Real.sin
  | .cos => Real.cos
  | .tan => Real.tan
  | .asin => Real.arcsin
  | .acos => Real.arccos
  | .atan => Real.arctan
  | .sinh => Real.sinh
  | .cosh => Real.cosh
  | .tanh => Real.tanh
  | .asinh => Real.arsinh
  | .acosh => Real.arcosh
  | .atanh => Real.artanh
  | .ceil => fun x => ⌈x⌉
  | .floor => fun x => ⌊x⌋
  | .round => fun x => roundR x
  | .trunc => fun x => truncR x
  | .fabs => fun x => |x|
  | .tgamma => Real.Gamma

/-- Real numbers.  There is no infinity (`max`, `min` and the factorial of infinities are
left to `Dbl`); a quotient by 0 is 0, which the properties exclude. -/
noncomputable def realArith : Arith ℝ where
  ofInt n := n
  literal q := q
  infinity := 0
  add := (· + ·)
  sub := (· - ·)
  mul := (· * ·)
  div := (· / ·)
  neg := (- ·)
  eq a b := decide (a = b)
  lt a b := decide (a < b)
  le a b := decide (a ≤ b)
  isinf _ := false
  toInt := toRangeR (-2147483648) 2147483647
  toLong := toRangeR (-longMax - 1) longMax
  pow := (· ^ ·)
  fmod x y := x - y * truncR (x / y)
  fn := realFn

end Verif
