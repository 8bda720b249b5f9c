import Mathlib.Algebra.Order.Field.Rat
import Mathlib.Algebra.Order.Ring.Abs

/-!
# Decimal numbers
-/

namespace Verif.PrintfSpec

/-- A number with at most ten significant digits. -/
def TenDigits (d : ℚ) : Prop := ∃ (n : ℕ) (z : ℤ), n < 10 ^ 10 ∧ d = n * 10 ^ z

/-- `d` has ten digits and differs from `q` by at most half a unit in the tenth. -/
def Rounds (q d : ℚ) : Prop := TenDigits d ∧ |d - q| ≤ q / (2 * 10 ^ 9)

/-- Zero, and positive numbers neither too small nor too large: from 0.0001 to 9999999999, up to rounding. -/
def Ordinary (q : ℚ) : Prop := q = 0 ∨ (1 / 10 ^ 4 - 5 / 10 ^ 15 ≤ q ∧ q < 10 ^ 10 - 1 / 2)

end Verif.PrintfSpec
