import Verif.Lemmas.RuleData
import Verif.Lemmas.ShippedParts
import Verif.Lemmas.KernelRfl

/-! # The texts of the rules are read as the trees of `ShippedParts` (part 4) -/

namespace Verif.Rules
open Shipped

theorem read4_0 : [r3_46, r3_47, r3_48, r3_49, r3_50, r4_0, r4_1, r4_2, r4_3].map readData
    = [p3_46, p3_47, p3_48, p3_49, p3_50, p4_0, p4_1, p4_2, p4_3].map RuleParts.read := by kernel_rfl

theorem read4_1 : [r4_4, r4_5, r4_6, r4_7, r4_8, r4_9, r5_0, r5_1, r5_2].map readData
    = [p4_4, p4_5, p4_6, p4_7, p4_8, p4_9, p5_0, p5_1, p5_2].map RuleParts.read := by kernel_rfl

theorem read4_2 : [r5_3, r5_4, r5_5, r5_6, r5_7, r5_8, r5_9, r5_10, r5_11].map readData
    = [p5_3, p5_4, p5_5, p5_6, p5_7, p5_8, p5_9, p5_10, p5_11].map RuleParts.read := by kernel_rfl

theorem read4_3 : [r5_12, r5_13, r5_14, r5_15, r5_16, r5_17, r5_18, r5_19, r5_20].map readData
    = [p5_12, p5_13, p5_14, p5_15, p5_16, p5_17, p5_18, p5_19, p5_20].map RuleParts.read := by kernel_rfl

theorem read4_4 : [r5_21, r5_22, r6_0].map readData
    = [p5_21, p5_22, p6_0].map RuleParts.read := by kernel_rfl

end Verif.Rules
