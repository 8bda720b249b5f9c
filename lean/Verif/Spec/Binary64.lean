import Verif.Model.Double

/-!
# The numbers of IEEE 754 binary64
-/

namespace Verif.DoubleSpec
open Verif

/-- The finite numbers: 53 bits, and exponents from -1074 to 971. -/
def Binary64 (x : ℚ) : Prop := ∃ m e : ℤ, |m| < 2 ^ 53 ∧ -1074 ≤ e ∧ e ≤ 971 ∧ x = m * 2 ^ e

/-- A double: an infinity, NaN or a finite number of this kind. -/
def IsDouble : Dbl → Prop
  | .fin q => Binary64 q
  | _ => True

/-- The order of the doubles that are numbers; infinities are the extremes. -/
def Below : Dbl → Dbl → Prop
  | .fin a, .fin b => a ≤ b
  | .inf s, .inf t => s = true ∨ t = false
  | .inf s, .fin _ => s = true
  | .fin _, .inf t => t = false
  | _, _ => False

end Verif.DoubleSpec
