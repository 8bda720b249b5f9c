import Verif.Model.Double
import Verif.Model.Tokenizer

/-!
# How numbers are written and read (`printf` and `strtod` of the C library)

The program writes constants with `CONSTANT_TYPE_FMT` (`%-.10g`, src/engine/tree/tree_to_string.h:10) and the numbers of a
table with `DOUBLE_FMT` (`%-.10f`, src/client/commands/cmd_table.c:20), and reads constants with `strtod`
(src/engine/parsing/parser.c:36-41).  These are functions of the C library; they are modelled as the C standard (7.21.6.1,
7.22.1.3) describes them, with the correct roundings that IEEE 754 asks for, in the locale "C".  The flag `-` has no meaning
without a width.  The signs of zero and of NaN are not modelled.
-/

namespace Verif.Printf
open Dbl

/-- A decimal digit. -/
def digit (n : ℕ) : Char := Char.ofNat (48 + n % 10)

/-- The last `k` decimal digits of a number. -/
def padded : ℕ → ℕ → Str
  | 0, _ => []
  | k + 1, n => padded k (n / 10) ++ [digit n]

/-- What stands in front of negative numbers. -/
def minus (q : ℚ) : Str := if q < 0 then "-".toList else []

/-- `%.10f`, C standard 7.21.6.1 paragraph 8. -/
def fixed10 : Dbl → Str
  | nan => "nan".toList
  | inf negative => if negative then "-inf".toList else "inf".toList
  | fin q =>
    let n := (halfEven (|q| * 10 ^ 10)).toNat
    minus q ++ Nat.toDigits 10 (n / 10 ^ 10) ++ ".".toList ++ padded 10 (n % 10 ^ 10)

/-- The ten digits of a positive number with the style `e` and precision 9 (as an integer), and the exponent. -/
def sig10 (q : ℚ) : ℕ × ℤ :=
  let x := Int.log 10 q
  let m := halfEven (q / 10 ^ (x - 9))
  if m = 10 ^ 10 then (10 ^ 9, x + 1) else (m.toNat, x)

/-- Trailing zeros are removed from the fractional portion. -/
def trim (s : Str) : Str := (s.reverse.dropWhile (· == '0')).reverse

/-- The decimal point is removed if there is no fractional portion remaining. -/
def pointed (a b : Str) : Str :=
  match trim b with
  | [] => a
  | c :: cs => a ++ '.' :: c :: cs

/-- The exponent contains at least two digits, and only as many more as necessary. -/
def exponent (x : ℤ) : Str :=
  (if x < 0 then "e-".toList else "e+".toList) ++ (if x.natAbs < 10 then "0".toList else []) ++ Nat.toDigits 10 x.natAbs

/-- A positive number with `%.10g`: style `f` if the exponent is at least -4 and less than 10, otherwise style `e`. -/
def general (q : ℚ) : Str :=
  let (m, x) := sig10 q
  let ds := padded 10 m
  if -4 ≤ x ∧ x < 10 then
    if 0 ≤ x then pointed (ds.take (x.toNat + 1)) (ds.drop (x.toNat + 1))
    else pointed "0".toList (List.replicate ((-x).toNat - 1) '0' ++ ds)
  else pointed (ds.take 1) (ds.drop 1) ++ exponent x

/-- `%.10g`, C standard 7.21.6.1 paragraph 8. -/
def general10 : Dbl → Str
  | nan => "nan".toList
  | inf negative => if negative then "-inf".toList else "inf".toList
  | fin q => if q = 0 then "0".toList else minus q ++ general |q|

/-- The value of a sequence of digits. -/
def number (s : Str) : ℕ := s.foldl (fun n c => 10 * n + (c.toNat - 48)) 0

def isDecimal (c : Char) : Bool := decide ('0' ≤ c ∧ c ≤ '9')

/-- A letter in lower case. -/
def lower (c : Char) : Char := if 'A' ≤ c ∧ c ≤ 'Z' then Char.ofNat (c.toNat + 32) else c

/-- `try_parse_constant`, src/engine/parsing/parser.c:36-41: `strtod` must consume the whole text.  A nonempty sequence of
digits optionally containing a decimal point, or the words `inf`, `infinity` and `nan` in any case.  In the empty text nothing is
left to consume; it yields 0.  (Simplification: the forms
with a sign, an exponent or hexadecimal digits are left out; no token of the tokenizer has one of these, since it separates
letters from digits.) -/
def strtod (s : Str) : Option Dbl :=
  if [ "inf".toList, "infinity".toList ].contains (s.map lower) then some (inf false)
  else if s.map lower = "nan".toList then some nan
  else
    let a := s.takeWhile isDecimal
    match s.dropWhile isDecimal with
    | [] => some (round (number a))
    | c :: b =>
      if c = '.' ∧ b.all isDecimal ∧ ¬ (a.isEmpty ∧ b.isEmpty) then
        some (round ((number (a ++ b) : ℚ) / 10 ^ b.length))
      else none

end Verif.Printf
