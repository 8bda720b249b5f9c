import Verif.Model.Operator
import Mathlib.Analysis.SpecialFunctions.Pow.Real
import Mathlib.Analysis.SpecialFunctions.Gamma.Basic
import Mathlib.Analysis.SpecialFunctions.Trigonometric.Arctan

/-!
# What the operators denote

After the descriptions in src/client/commands/cmd_help.c:50-109.  Inverse functions are
given by what they invert.
-/

namespace Verif

/-- `Denotes name pl args v`: the operator with this name and placement denotes a function
that has value `v` at `args`. -/
inductive Denotes : String → Placement → List ℝ → ℝ → Prop where
  | id {x} : Denotes "$" .prefix [x] x
  | add {x y} : Denotes "+" .infix [x, y] (x + y)
  | sub {x y} : Denotes "-" .infix [x, y] (x - y)
  | mul {x y} : Denotes "*" .infix [x, y] (x * y)
  | div {x y z : ℝ} : y ≠ 0 → z * y = x → Denotes "/" .infix [x, y] z
  | pow {x y : ℝ} : 0 < x → Denotes "^" .infix [x, y] (x ^ y)
  | powZero {y : ℝ} : 0 < y → Denotes "^" .infix [0, y] 0
  | powNat {x : ℝ} {n : ℕ} : 1 ≤ n → Denotes "^" .infix [x, n] (x ^ n)
  | mod {x y z : ℝ} : y ≠ 0 → |z| < |y| → 0 ≤ z * x → (∃ k : ℤ, x = k * y + z) → Denotes "mod" .infix [x, y] z
  | plus {x} : Denotes "+" .prefix [x] x
  | neg {x} : Denotes "-" .prefix [x] (-x)
  | percent {x} : Denotes "%" .postfix [x] (x / 100)
  | exp {x} : Denotes "exp" .function [x] (Real.exp x)
  | root {x n y : ℝ} : 0 < y → n ≠ 0 → y ^ n = x → Denotes "root" .function [x, n] y
  | sqrt {x y : ℝ} : 0 ≤ y → y * y = x → Denotes "sqrt" .function [x] y
  | log {x n y : ℝ} : 0 < n → n ≠ 1 → n ^ y = x → Denotes "log" .function [x, n] y
  | ln {x y : ℝ} : Real.exp y = x → Denotes "ln" .function [x] y
  | ld {x y : ℝ} : (2 : ℝ) ^ y = x → Denotes "ld" .function [x] y
  | lg {x y : ℝ} : (10 : ℝ) ^ y = x → Denotes "lg" .function [x] y
  | sin {x} : Denotes "sin" .function [x] (Real.sin x)
  | cos {x} : Denotes "cos" .function [x] (Real.cos x)
  | tan {x y : ℝ} : Real.cos x ≠ 0 → y * Real.cos x = Real.sin x → Denotes "tan" .function [x] y
  | asin {x y : ℝ} : -(Real.pi / 2) ≤ y → y ≤ Real.pi / 2 → Real.sin y = x → Denotes "asin" .function [x] y
  | acos {x y : ℝ} : 0 ≤ y → y ≤ Real.pi → Real.cos y = x → Denotes "acos" .function [x] y
  | atan {x y : ℝ} : -(Real.pi / 2) < y → y < Real.pi / 2 → Real.sin y = x * Real.cos y →
      Denotes "atan" .function [x] y
  | sinh {x} : Denotes "sinh" .function [x] ((Real.exp x - Real.exp (-x)) / 2)
  | cosh {x} : Denotes "cosh" .function [x] ((Real.exp x + Real.exp (-x)) / 2)
  | tanh {x} : Denotes "tanh" .function [x] ((Real.exp x - Real.exp (-x)) / (Real.exp x + Real.exp (-x)))
  | asinh {x y : ℝ} : Real.exp y - Real.exp (-y) = 2 * x → Denotes "asinh" .function [x] y
  | acosh {x y : ℝ} : 0 ≤ y → Real.exp y + Real.exp (-y) = 2 * x → Denotes "acosh" .function [x] y
  | atanh {x y : ℝ} : Real.exp y - Real.exp (-y) = x * (Real.exp y + Real.exp (-y)) → Denotes "atanh" .function [x] y
  | abs {x} : Denotes "abs" .function [x] (max x (-x))
  | ceil {x : ℝ} {n : ℤ} : x ≤ n → n < x + 1 → Denotes "ceil" .function [x] n
  | floor {x : ℝ} {n : ℤ} : n ≤ x → x < n + 1 → Denotes "floor" .function [x] n
  | round {x : ℝ} {n : ℤ} : |x - n| < 1 / 2 → Denotes "round" .function [x] n
  | roundHalf {n : ℤ} : 0 ≤ n → Denotes "round" .function [(n : ℝ) + 1 / 2] ((n + 1 : ℤ) : ℝ)
  | roundHalfNeg {n : ℤ} : n ≤ 0 → Denotes "round" .function [(n : ℝ) - 1 / 2] ((n - 1 : ℤ) : ℝ)
  | trunc {x : ℝ} {n : ℤ} : 0 ≤ x → n ≤ x → x < n + 1 → Denotes "trunc" .function [x] n
  | truncNeg {x : ℝ} {n : ℤ} : x ≤ 0 → x ≤ n → n < x + 1 → Denotes "trunc" .function [x] n
  | frac {x y : ℝ} : 0 ≤ y → y < 1 → (∃ n : ℤ, x = n + y) → Denotes "frac" .function [x] y
  | sgnPos {x : ℝ} : 0 < x → Denotes "sgn" .function [x] 1
  | sgnZero : Denotes "sgn" .function [0] 0
  | sgnNeg {x : ℝ} : x < 0 → Denotes "sgn" .function [x] (-1)
  | sum {l : List ℝ} : Denotes "sum" .function l l.sum
  | prod {l : List ℝ} : Denotes "prod" .function l l.prod
  | avg {l : List ℝ} {m : ℝ} : l ≠ [] → m * l.length = l.sum → Denotes "avg" .function l m
  | var {l : List ℝ} {m v : ℝ} : l ≠ [] → m * l.length = l.sum → v * l.length = (l.map fun x => (x - m) ^ 2).sum →
      Denotes "var" .function l v
  | gamma {x : ℝ} : 0 < x → Denotes "gamma" .function [x] (Real.Gamma x)
  | clight : Denotes "clight" .function [] 299792458
  | csound : Denotes "csound" .function [] 343.2

end Verif
