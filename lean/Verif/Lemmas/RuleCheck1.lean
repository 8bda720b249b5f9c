import Verif.Lemmas.RuleData
import Verif.Lemmas.ShippedParts
import Verif.Lemmas.KernelRfl

/-! # The texts of the rules are read as the trees of `ShippedParts` (part 1) -/

namespace Verif.Rules
open Shipped

theorem read1_0 : [r0_0, r0_1, r0_2, r0_3, r0_4, r0_5, r0_6, r0_7, r0_8].map readData
    = [p0_0, p0_1, p0_2, p0_3, p0_4, p0_5, p0_6, p0_7, p0_8].map RuleParts.read := by kernel_rfl

theorem read1_1 : [r0_9, r0_10, r0_11, r0_12, r0_13, r1_0, r1_1, r1_2, r1_3].map readData
    = [p0_9, p0_10, p0_11, p0_12, p0_13, p1_0, p1_1, p1_2, p1_3].map RuleParts.read := by kernel_rfl

theorem read1_2 : [r1_4, r1_5, r1_6, r1_7, r1_8, r1_9, r1_10, r1_11, r1_12].map readData
    = [p1_4, p1_5, p1_6, p1_7, p1_8, p1_9, p1_10, p1_11, p1_12].map RuleParts.read := by kernel_rfl

theorem read1_3 : [r1_13, r1_14, r1_15, r1_16, r1_17, r1_18, r1_19, r1_20, r1_21].map readData
    = [p1_13, p1_14, p1_15, p1_16, p1_17, p1_18, p1_19, p1_20, p1_21].map RuleParts.read := by kernel_rfl

theorem read1_4 : [r1_22, r2_0, r2_1, r2_2, r2_3, r2_4, r2_5, r2_6, r2_7].map readData
    = [p1_22, p2_0, p2_1, p2_2, p2_3, p2_4, p2_5, p2_6, p2_7].map RuleParts.read := by kernel_rfl

theorem read1_5 : [r2_8].map readData
    = [p2_8].map RuleParts.read := by kernel_rfl

end Verif.Rules
