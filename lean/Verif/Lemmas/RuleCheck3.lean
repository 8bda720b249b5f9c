import Verif.Lemmas.RuleData
import Verif.Lemmas.ShippedParts
import Verif.Lemmas.KernelRfl

/-! # The texts of the rules are read as the trees of `ShippedParts` (part 3) -/

namespace Verif.Rules
open Shipped

theorem read3_0 : [r3_23, r3_24, r3_25, r3_26, r3_27, r3_28, r3_29, r3_30, r3_31].map readData
    = [p3_23, p3_24, p3_25, p3_26, p3_27, p3_28, p3_29, p3_30, p3_31].map RuleParts.read := by kernel_rfl

theorem read3_1 : [r3_32, r3_33, r3_34, r3_35, r3_36, r3_37, r3_38, r3_39, r3_40].map readData
    = [p3_32, p3_33, p3_34, p3_35, p3_36, p3_37, p3_38, p3_39, p3_40].map RuleParts.read := by kernel_rfl

theorem read3_2 : [r3_41, r3_42, r3_43, r3_44, r3_45].map readData
    = [p3_41, p3_42, p3_43, p3_44, p3_45].map RuleParts.read := by kernel_rfl

end Verif.Rules
