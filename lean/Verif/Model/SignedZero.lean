import Verif.Model.Double
import Verif.Model.Printf

/-!
# Doubles with two zeros

The numbers of `Verif.Model.Double` have one zero.  Here are those of IEEE 754 with both, to show what
the sign of zero has an effect on.
-/

namespace Verif

/-- A double: -0, or one of the others. -/
inductive SDbl where
  | negZero
  | of (x : Dbl)
deriving DecidableEq

namespace SDbl
open Dbl

/-- The number without the sign of zero. -/
def value : SDbl → Dbl
  | negZero => fin 0
  | of x => x

/-- The sign bit. -/
def negative : SDbl → Bool
  | negZero => true
  | of (fin q) => decide (q < 0)
  | of (inf s) => s
  | of nan => false

/-- A result whose sign is known. -/
def signed (s : Bool) (x : Dbl) : SDbl := if s = true ∧ x = fin 0 then negZero else of x

def neg : SDbl → SDbl
  | negZero => of (fin 0)
  | of x => if x = fin 0 then negZero else of (Dbl.neg x)

/-- Whether the exact sum is negative. -/
def negativeSum : Dbl → Dbl → Bool
  | fin a, fin b => decide (a + b < 0)
  | _, _ => false

/-- The sum of two zeros is -0 if both are. -/
def add (r : ℚ → Dbl) (a b : SDbl) : SDbl :=
  if a = negZero ∧ b = negZero then negZero else signed (negativeSum a.value b.value) (Dbl.add r a.value b.value)

def mul (r : ℚ → Dbl) (a b : SDbl) : SDbl := signed (a.negative != b.negative) (Dbl.mul r a.value b.value)

/-- A quotient by -0 is the opposite of that by 0. -/
def div (r : ℚ → Dbl) (a b : SDbl) : SDbl :=
  match b with
  | negZero => neg (of (Dbl.div r a.value (fin 0)))
  | of y => signed (a.negative != b.negative) (Dbl.div r a.value y)

/-- Functions of the C library. -/
structure Lib where
  pow : SDbl → SDbl → SDbl
  fmod : SDbl → SDbl → SDbl
  fn : MathFn → SDbl → SDbl

/-- The arithmetic of IEEE 754; comparisons and conversions do not see the sign of zero. -/
def arith (r : ℚ → Dbl) (L : Lib) : Arith SDbl where
  ofInt n := of (r n)
  literal q := of (r q)
  infinity := of (inf false)
  add := add r
  sub a b := add r a (neg b)
  mul := mul r
  div := div r
  neg := neg
  eq a b := Dbl.eq a.value b.value
  lt a b := Dbl.lt a.value b.value
  le a b := Dbl.le a.value b.value
  isinf a := match a.value with
    | inf _ => true
    | _ => false
  toInt a := toRange (-2147483648) 2147483647 a.value
  toLong a := toRange (-longMax - 1) longMax a.value
  pow := L.pow
  fmod := L.fmod
  fn
    | .trunc, a => signed a.negative (toInteger truncQ a.value)
    | .floor, a => signed a.negative (toInteger Int.floor a.value)
    | .ceil, a => signed a.negative (toInteger Int.ceil a.value)
    | .round, a => signed a.negative (toInteger roundQ a.value)
    | .fabs, a => of (Dbl.abs a.value)
    | f, a => L.fn f a

/-- `printf` of a double in one of its formats, given that of the others. -/
def text (format : Dbl → Str) : SDbl → Str
  | negZero => '-' :: format (fin 0)
  | of x => format x

end SDbl

end Verif
