import Verif.Lemmas.RuleData
import Verif.Lemmas.ShippedParts
import Verif.Lemmas.KernelRfl

/-! # The texts of the rules are read as the trees of `ShippedParts` (part 2) -/

namespace Verif.Rules
open Shipped

theorem read2_0 : [r2_9, r2_10, r2_11, r2_12, r3_0, r3_1, r3_2, r3_3, r3_4].map readData
    = [p2_9, p2_10, p2_11, p2_12, p3_0, p3_1, p3_2, p3_3, p3_4].map RuleParts.read := by kernel_rfl

theorem read2_1 : [r3_5, r3_6, r3_7, r3_8, r3_9, r3_10, r3_11, r3_12, r3_13].map readData
    = [p3_5, p3_6, p3_7, p3_8, p3_9, p3_10, p3_11, p3_12, p3_13].map RuleParts.read := by kernel_rfl

theorem read2_2 : [r3_14, r3_15, r3_16, r3_17, r3_18, r3_19, r3_20, r3_21, r3_22].map readData
    = [p3_14, p3_15, p3_16, p3_17, p3_18, p3_19, p3_20, p3_21, p3_22].map RuleParts.read := by kernel_rfl

end Verif.Rules
