import Verif.Model.Evaluation
import Mathlib.Data.Int.Log
import Mathlib.Algebra.Order.Field.Rat
import Mathlib.Data.Rat.Floor
import Mathlib.Algebra.Order.Round

/-!
# Numbers with infinities and NaN

The type `double` as C implementations with IEEE 754 have it.  Each operation is that on
rational numbers followed by a rounding `r`: `Dbl.round` for doubles, `Dbl.fin` for
exact arithmetic.  The sign of zero is not modelled.  What the C library computes with
(`pow`, `sin`, ...) is a parameter.
-/

namespace Verif

/-- A number. -/
inductive Dbl where
  | fin (q : ℚ)
  | inf (negative : Bool)
  | nan
deriving DecidableEq

namespace Dbl

/-- Nearest integer, the even one if there are two. -/
def halfEven (q : ℚ) : ℤ :=
  if q - ⌊q⌋ < 1 / 2 then ⌊q⌋
  else if 1 / 2 < q - ⌊q⌋ then ⌊q⌋ + 1
  else if ⌊q⌋ % 2 = 0 then ⌊q⌋ else ⌊q⌋ + 1

/-- Exponent of the last of the 53 bits of a number. -/
def lastBit (q : ℚ) : ℤ := max (Int.log 2 |q| - 52) (-1074)

/-- Rounding to nearest of IEEE 754 binary64. -/
def round (q : ℚ) : Dbl :=
  let r : ℚ := halfEven (q / 2 ^ lastBit q) * 2 ^ lastBit q
  if |r| < 2 ^ (1024 : ℕ) then fin r else inf (decide (r < 0))

/-- Towards zero. -/
def truncQ (q : ℚ) : ℤ := if 0 ≤ q then ⌊q⌋ else ⌈q⌉

/-- Half away from zero. -/
def roundQ (q : ℚ) : ℤ := if 0 ≤ q then ⌊q + 1 / 2⌋ else ⌈q - 1 / 2⌉

def neg : Dbl → Dbl
  | fin q => fin (-q)
  | inf s => inf !s
  | nan => nan

def add (r : ℚ → Dbl) : Dbl → Dbl → Dbl
  | fin a, fin b => r (a + b)
  | inf s, inf t => if s = t then inf s else nan
  | inf s, fin _ => inf s
  | fin _, inf t => inf t
  | _, _ => nan

def mul (r : ℚ → Dbl) : Dbl → Dbl → Dbl
  | fin a, fin b => r (a * b)
  | inf s, inf t => inf (s != t)
  | inf s, fin b => if b = 0 then nan else inf (s != decide (b < 0))
  | fin a, inf t => if a = 0 then nan else inf (t != decide (a < 0))
  | _, _ => nan

def div (r : ℚ → Dbl) : Dbl → Dbl → Dbl
  | fin a, fin b => if b = 0 then if a = 0 then nan else inf (decide (a < 0)) else r (a / b)
  | inf s, fin b => inf (s != decide (b < 0))
  | fin _, inf _ => fin 0
  | _, _ => nan

def eq : Dbl → Dbl → Bool
  | fin a, fin b => a == b
  | inf s, inf t => s == t
  | _, _ => false

def lt : Dbl → Dbl → Bool
  | fin a, fin b => decide (a < b)
  | inf s, inf t => s && !t
  | inf s, fin _ => s
  | fin _, inf t => !t
  | _, _ => false

def le (a b : Dbl) : Bool := lt a b || eq a b

/-- A function of finite numbers to integers. -/
def toInteger (f : ℚ → ℤ) : Dbl → Dbl
  | fin q => fin (f q)
  | x => x

def abs : Dbl → Dbl
  | fin q => fin |q|
  | inf _ => inf false
  | nan => nan

/-- Conversion to an integer type. -/
def toRange (lo hi : ℤ) : Dbl → Option ℤ
  | fin q => if lo ≤ truncQ q ∧ truncQ q ≤ hi then some (truncQ q) else none
  | _ => none

/-- Functions of the C library. -/
structure Lib where
  pow : Dbl → Dbl → Dbl
  fmod : Dbl → Dbl → Dbl
  fn : MathFn → Dbl → Dbl

/-- The arithmetic with the given rounding. -/
def arith (r : ℚ → Dbl) (L : Lib) : Arith Dbl where
  ofInt n := r n
  literal q := r q
  infinity := inf false
  add := add r
  sub a b := add r a (neg b)
  mul := mul r
  div := div r
  neg := neg
  eq := eq
  lt := lt
  le := le
  isinf
    | inf _ => true
    | _ => false
  toInt := toRange (-2147483648) 2147483647
  toLong := toRange (-longMax - 1) longMax
  pow := L.pow
  fmod := L.fmod
  fn
    | .trunc => toInteger truncQ
    | .floor => toInteger Int.floor
    | .ceil => toInteger Int.ceil
    | .round => toInteger roundQ
    | .fabs => abs
    | f => L.fn f

end Dbl

end Verif
