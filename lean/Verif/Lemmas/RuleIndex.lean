import Verif.Lemmas.RuleDerivs
import Verif.Lemmas.RuleFile
import Verif.Spec.RuleSound

/-!
# What holds for the rules, by number
-/

namespace Verif.Rules
open Verif
variable {I : Interp}

theorem good0 (hI : I.Right) : ∀ i d, ruleset0[i]? = some d → (0, i) ∉ unsoundRules ++ lossyRules → d.Good I
  | 0, _, h, _ => Option.some.inj h ▸ r0_0_good hI
  | 1, _, h, _ => Option.some.inj h ▸ r0_1_good hI
  | 2, _, h, _ => Option.some.inj h ▸ r0_2_good hI
  | 3, _, h, _ => Option.some.inj h ▸ r0_3_good hI
  | 4, _, h, _ => Option.some.inj h ▸ r0_4_good hI
  | 5, _, h, _ => Option.some.inj h ▸ r0_5_good hI
  | 6, _, h, _ => Option.some.inj h ▸ r0_6_good hI
  | 7, _, h, _ => Option.some.inj h ▸ r0_7_good hI
  | 8, _, h, _ => Option.some.inj h ▸ r0_8_good hI
  | 9, _, h, _ => Option.some.inj h ▸ r0_9_good hI
  | 10, _, h, _ => Option.some.inj h ▸ r0_10_good hI
  | 11, _, h, _ => Option.some.inj h ▸ r0_11_good hI
  | 12, _, h, _ => Option.some.inj h ▸ r0_12_good hI
  | 13, _, h, _ => Option.some.inj h ▸ r0_13_good hI
  | _ + 14, _, h, _ => nomatch h

theorem good1 (hI : I.Right) : ∀ i d, ruleset1[i]? = some d → (1, i) ∉ unsoundRules ++ lossyRules → d.Good I
  | 0, _, h, _ => Option.some.inj h ▸ r1_0_good hI
  | 1, _, h, _ => Option.some.inj h ▸ r1_1_good hI
  | 2, _, h, _ => Option.some.inj h ▸ r1_2_good hI
  | 3, _, h, _ => Option.some.inj h ▸ r1_3_good hI
  | 4, _, h, _ => Option.some.inj h ▸ r1_4_good hI
  | 5, _, h, _ => Option.some.inj h ▸ r1_5_good hI
  | 6, _, h, _ => Option.some.inj h ▸ r1_6_good hI
  | 7, _, _, h' => (h' (by decide)).elim
  | 8, _, h, _ => Option.some.inj h ▸ r1_8_good hI
  | 9, _, _, h' => (h' (by decide)).elim
  | 10, _, h, _ => Option.some.inj h ▸ r1_10_good hI
  | 11, _, _, h' => (h' (by decide)).elim
  | 12, _, _, h' => (h' (by decide)).elim
  | 13, _, _, h' => (h' (by decide)).elim
  | 14, _, _, h' => (h' (by decide)).elim
  | 15, _, _, h' => (h' (by decide)).elim
  | 16, _, _, h' => (h' (by decide)).elim
  | 17, _, _, h' => (h' (by decide)).elim
  | 18, _, _, h' => (h' (by decide)).elim
  | 19, _, h, _ => Option.some.inj h ▸ r1_19_good hI
  | 20, _, h, _ => Option.some.inj h ▸ r1_20_good hI
  | 21, _, _, h' => (h' (by decide)).elim
  | 22, _, h, _ => Option.some.inj h ▸ r1_22_good hI
  | _ + 23, _, h, _ => nomatch h

theorem good2 (hI : I.Right) : ∀ i d, ruleset2[i]? = some d → (2, i) ∉ unsoundRules ++ lossyRules → d.Good I
  | 0, _, h, _ => Option.some.inj h ▸ r2_0_good hI
  | 1, _, h, _ => Option.some.inj h ▸ r2_1_good hI
  | 2, _, h, _ => Option.some.inj h ▸ r2_2_good hI
  | 3, _, h, _ => Option.some.inj h ▸ r2_3_good hI
  | 4, _, h, _ => Option.some.inj h ▸ r2_4_good hI
  | 5, _, h, _ => Option.some.inj h ▸ r2_5_good hI
  | 6, _, h, _ => Option.some.inj h ▸ r2_6_good hI
  | 7, _, h, _ => Option.some.inj h ▸ r2_7_good hI
  | 8, _, h, _ => Option.some.inj h ▸ r2_8_good hI
  | 9, _, h, _ => Option.some.inj h ▸ r2_9_good hI
  | 10, _, h, _ => Option.some.inj h ▸ r2_10_good hI
  | 11, _, h, _ => Option.some.inj h ▸ r2_11_good hI
  | 12, _, h, _ => Option.some.inj h ▸ r2_12_good hI
  | _ + 13, _, h, _ => nomatch h

theorem good3 (hI : I.Right) : ∀ i d, ruleset3[i]? = some d → (3, i) ∉ unsoundRules ++ lossyRules → d.Good I
  | 0, _, h, _ => Option.some.inj h ▸ r3_0_good hI
  | 1, _, h, _ => Option.some.inj h ▸ r3_1_good hI
  | 2, _, h, _ => Option.some.inj h ▸ r3_2_good hI
  | 3, _, h, _ => Option.some.inj h ▸ r3_3_good hI
  | 4, _, h, _ => Option.some.inj h ▸ r3_4_good hI
  | 5, _, h, _ => Option.some.inj h ▸ r3_5_good hI
  | 6, _, h, _ => Option.some.inj h ▸ r3_6_good hI
  | 7, _, h, _ => Option.some.inj h ▸ r3_7_good hI
  | 8, _, h, _ => Option.some.inj h ▸ r3_8_good hI
  | 9, _, h, _ => Option.some.inj h ▸ r3_9_good hI
  | 10, _, h, _ => Option.some.inj h ▸ r3_10_good hI
  | 11, _, h, _ => Option.some.inj h ▸ r3_11_good hI
  | 12, _, h, _ => Option.some.inj h ▸ r3_12_good hI
  | 13, _, h, _ => Option.some.inj h ▸ r3_13_good hI
  | 14, _, h, _ => Option.some.inj h ▸ r3_14_good hI
  | 15, _, h, _ => Option.some.inj h ▸ r3_15_good hI
  | 16, _, h, _ => Option.some.inj h ▸ r3_16_good hI
  | 17, _, h, _ => Option.some.inj h ▸ r3_17_good hI
  | 18, _, h, _ => Option.some.inj h ▸ r3_18_good hI
  | 19, _, h, _ => Option.some.inj h ▸ r3_19_good hI
  | 20, _, h, _ => Option.some.inj h ▸ r3_20_good hI
  | 21, _, h, _ => Option.some.inj h ▸ r3_21_good hI
  | 22, _, h, _ => Option.some.inj h ▸ r3_22_good hI
  | 23, _, h, _ => Option.some.inj h ▸ r3_23_good hI
  | 24, _, h, _ => Option.some.inj h ▸ r3_24_good hI
  | 25, _, h, _ => Option.some.inj h ▸ r3_25_good hI
  | 26, _, h, _ => Option.some.inj h ▸ r3_26_good hI
  | 27, _, h, _ => Option.some.inj h ▸ r3_27_good hI
  | 28, _, h, _ => Option.some.inj h ▸ r3_28_good hI
  | 29, _, _, h' => (h' (by decide)).elim
  | 30, _, h, _ => Option.some.inj h ▸ r3_30_good hI
  | 31, _, h, _ => Option.some.inj h ▸ r3_31_good hI
  | 32, _, h, _ => Option.some.inj h ▸ r3_32_good hI
  | 33, _, h, _ => Option.some.inj h ▸ r3_33_good hI
  | 34, _, _, h' => (h' (by decide)).elim
  | 35, _, h, _ => Option.some.inj h ▸ r3_35_good hI
  | 36, _, h, _ => Option.some.inj h ▸ r3_36_good hI
  | 37, _, _, h' => (h' (by decide)).elim
  | 38, _, h, _ => Option.some.inj h ▸ r3_38_good hI
  | 39, _, h, _ => Option.some.inj h ▸ r3_39_good hI
  | 40, _, h, _ => Option.some.inj h ▸ r3_40_good hI
  | 41, _, _, h' => (h' (by decide)).elim
  | 42, _, h, _ => Option.some.inj h ▸ r3_42_good hI
  | 43, _, h, _ => Option.some.inj h ▸ r3_43_good hI
  | 44, _, h, _ => Option.some.inj h ▸ r3_44_good hI
  | 45, _, h, _ => Option.some.inj h ▸ r3_45_good hI
  | 46, _, h, _ => Option.some.inj h ▸ r3_46_good hI
  | 47, _, h, _ => Option.some.inj h ▸ r3_47_good hI
  | 48, _, h, _ => Option.some.inj h ▸ r3_48_good hI
  | 49, _, h, _ => Option.some.inj h ▸ r3_49_good hI
  | 50, _, h, _ => Option.some.inj h ▸ r3_50_good hI
  | _ + 51, _, h, _ => nomatch h

theorem good4 (hI : I.Right) : ∀ i d, ruleset4[i]? = some d → (4, i) ∉ unsoundRules ++ lossyRules → d.Good I
  | 0, _, h, _ => Option.some.inj h ▸ r4_0_good hI
  | 1, _, h, _ => Option.some.inj h ▸ r4_1_good hI
  | 2, _, h, _ => Option.some.inj h ▸ r4_2_good hI
  | 3, _, h, _ => Option.some.inj h ▸ r4_3_good hI
  | 4, _, h, _ => Option.some.inj h ▸ r4_4_good hI
  | 5, _, h, _ => Option.some.inj h ▸ r4_5_good hI
  | 6, _, h, _ => Option.some.inj h ▸ r4_6_good hI
  | 7, _, h, _ => Option.some.inj h ▸ r4_7_good hI
  | 8, _, h, _ => Option.some.inj h ▸ r4_8_good hI
  | 9, _, h, _ => Option.some.inj h ▸ r4_9_good hI
  | _ + 10, _, h, _ => nomatch h

theorem good5 (hI : I.Right) : ∀ i d, ruleset5[i]? = some d → (5, i) ∉ unsoundRules ++ lossyRules → d.Good I
  | 0, _, h, _ => Option.some.inj h ▸ r5_0_good hI
  | 1, _, h, _ => Option.some.inj h ▸ r5_1_good hI
  | 2, _, h, _ => Option.some.inj h ▸ r5_2_good hI
  | 3, _, _, h' => (h' (by decide)).elim
  | 4, _, h, _ => Option.some.inj h ▸ r5_4_good hI
  | 5, _, h, _ => Option.some.inj h ▸ r5_5_good hI
  | 6, _, _, h' => (h' (by decide)).elim
  | 7, _, h, _ => Option.some.inj h ▸ r5_7_good hI
  | 8, _, h, _ => Option.some.inj h ▸ r5_8_good hI
  | 9, _, h, _ => Option.some.inj h ▸ r5_9_good hI
  | 10, _, h, _ => Option.some.inj h ▸ r5_10_good hI
  | 11, _, h, _ => Option.some.inj h ▸ r5_11_good hI
  | 12, _, h, _ => Option.some.inj h ▸ r5_12_good hI
  | 13, _, h, _ => Option.some.inj h ▸ r5_13_good hI
  | 14, _, h, _ => Option.some.inj h ▸ r5_14_good hI
  | 15, _, h, _ => Option.some.inj h ▸ r5_15_good hI
  | 16, _, h, _ => Option.some.inj h ▸ r5_16_good hI
  | 17, _, h, _ => Option.some.inj h ▸ r5_17_good hI
  | 18, _, _, h' => (h' (by decide)).elim
  | 19, _, h, _ => Option.some.inj h ▸ r5_19_good hI
  | 20, _, h, _ => Option.some.inj h ▸ r5_20_good hI
  | 21, _, h, _ => Option.some.inj h ▸ r5_21_good hI
  | 22, _, h, _ => Option.some.inj h ▸ r5_22_good hI
  | _ + 23, _, h, _ => nomatch h

theorem good6 (hI : I.Right) : ∀ i d, ruleset6[i]? = some d → (6, i) ∉ unsoundRules ++ lossyRules → d.Good I
  | 0, _, h, _ => Option.some.inj h ▸ r6_0_good hI
  | _ + 1, _, h, _ => nomatch h

theorem fair0 (hI : I.Right) : ∀ i d, ruleset0[i]? = some d → (0, i) ∉ unsoundRules → d.Fair I :=
  fun i d h _ => (good0 hI i d h (by intro h; rw [unsoundRules, lossyRules] at h; simp at h)).fair

theorem fair1 (hI : I.Right) : ∀ i d, ruleset1[i]? = some d → (1, i) ∉ unsoundRules → d.Fair I
  | 0, _, h, _ => Option.some.inj h ▸ (r1_0_good hI).fair
  | 1, _, h, _ => Option.some.inj h ▸ (r1_1_good hI).fair
  | 2, _, h, _ => Option.some.inj h ▸ (r1_2_good hI).fair
  | 3, _, h, _ => Option.some.inj h ▸ (r1_3_good hI).fair
  | 4, _, h, _ => Option.some.inj h ▸ (r1_4_good hI).fair
  | 5, _, h, _ => Option.some.inj h ▸ (r1_5_good hI).fair
  | 6, _, h, _ => Option.some.inj h ▸ (r1_6_good hI).fair
  | 7, _, _, h' => (h' (by decide)).elim
  | 8, _, h, _ => Option.some.inj h ▸ (r1_8_good hI).fair
  | 9, _, h, _ => Option.some.inj h ▸ (r1_9_onward hI).fair
  | 10, _, h, _ => Option.some.inj h ▸ (r1_10_good hI).fair
  | 11, _, h, _ => Option.some.inj h ▸ (r1_11_onward hI).fair
  | 12, _, h, _ => Option.some.inj h ▸ (r1_12_onward hI).fair
  | 13, _, h, _ => Option.some.inj h ▸ (r1_13_onward hI).fair
  | 14, _, h, _ => Option.some.inj h ▸ (r1_14_onward hI).fair
  | 15, _, h, _ => Option.some.inj h ▸ (r1_15_onward hI).fair
  | 16, _, h, _ => Option.some.inj h ▸ (r1_16_onward hI).fair
  | 17, _, h, _ => Option.some.inj h ▸ (r1_17_onward hI).fair
  | 18, _, h, _ => Option.some.inj h ▸ (r1_18_onward hI).fair
  | 19, _, h, _ => Option.some.inj h ▸ (r1_19_good hI).fair
  | 20, _, h, _ => Option.some.inj h ▸ (r1_20_good hI).fair
  | 21, _, h, _ => Option.some.inj h ▸ (r1_21_onward hI).fair
  | 22, _, h, _ => Option.some.inj h ▸ (r1_22_good hI).fair
  | _ + 23, _, h, _ => nomatch h

theorem fair2 (hI : I.Right) : ∀ i d, ruleset2[i]? = some d → (2, i) ∉ unsoundRules → d.Fair I :=
  fun i d h _ => (good2 hI i d h (by intro h; rw [unsoundRules, lossyRules] at h; simp at h)).fair

theorem fair3 (hI : I.Right) : ∀ i d, ruleset3[i]? = some d → (3, i) ∉ unsoundRules → d.Fair I
  | 0, _, h, _ => Option.some.inj h ▸ (r3_0_good hI).fair
  | 1, _, h, _ => Option.some.inj h ▸ (r3_1_good hI).fair
  | 2, _, h, _ => Option.some.inj h ▸ (r3_2_good hI).fair
  | 3, _, h, _ => Option.some.inj h ▸ (r3_3_good hI).fair
  | 4, _, h, _ => Option.some.inj h ▸ (r3_4_good hI).fair
  | 5, _, h, _ => Option.some.inj h ▸ (r3_5_good hI).fair
  | 6, _, h, _ => Option.some.inj h ▸ (r3_6_good hI).fair
  | 7, _, h, _ => Option.some.inj h ▸ (r3_7_good hI).fair
  | 8, _, h, _ => Option.some.inj h ▸ (r3_8_good hI).fair
  | 9, _, h, _ => Option.some.inj h ▸ (r3_9_good hI).fair
  | 10, _, h, _ => Option.some.inj h ▸ (r3_10_good hI).fair
  | 11, _, h, _ => Option.some.inj h ▸ (r3_11_good hI).fair
  | 12, _, h, _ => Option.some.inj h ▸ (r3_12_good hI).fair
  | 13, _, h, _ => Option.some.inj h ▸ (r3_13_good hI).fair
  | 14, _, h, _ => Option.some.inj h ▸ (r3_14_good hI).fair
  | 15, _, h, _ => Option.some.inj h ▸ (r3_15_good hI).fair
  | 16, _, h, _ => Option.some.inj h ▸ (r3_16_good hI).fair
  | 17, _, h, _ => Option.some.inj h ▸ (r3_17_good hI).fair
  | 18, _, h, _ => Option.some.inj h ▸ (r3_18_good hI).fair
  | 19, _, h, _ => Option.some.inj h ▸ (r3_19_good hI).fair
  | 20, _, h, _ => Option.some.inj h ▸ (r3_20_good hI).fair
  | 21, _, h, _ => Option.some.inj h ▸ (r3_21_good hI).fair
  | 22, _, h, _ => Option.some.inj h ▸ (r3_22_good hI).fair
  | 23, _, h, _ => Option.some.inj h ▸ (r3_23_good hI).fair
  | 24, _, h, _ => Option.some.inj h ▸ (r3_24_good hI).fair
  | 25, _, h, _ => Option.some.inj h ▸ (r3_25_good hI).fair
  | 26, _, h, _ => Option.some.inj h ▸ (r3_26_good hI).fair
  | 27, _, h, _ => Option.some.inj h ▸ (r3_27_good hI).fair
  | 28, _, h, _ => Option.some.inj h ▸ (r3_28_good hI).fair
  | 29, _, _, h' => (h' (by decide)).elim
  | 30, _, h, _ => Option.some.inj h ▸ (r3_30_good hI).fair
  | 31, _, h, _ => Option.some.inj h ▸ (r3_31_good hI).fair
  | 32, _, h, _ => Option.some.inj h ▸ (r3_32_good hI).fair
  | 33, _, h, _ => Option.some.inj h ▸ (r3_33_good hI).fair
  | 34, _, h, _ => Option.some.inj h ▸ r3_34_fair hI
  | 35, _, h, _ => Option.some.inj h ▸ (r3_35_good hI).fair
  | 36, _, h, _ => Option.some.inj h ▸ (r3_36_good hI).fair
  | 37, _, _, h' => (h' (by decide)).elim
  | 38, _, h, _ => Option.some.inj h ▸ (r3_38_good hI).fair
  | 39, _, h, _ => Option.some.inj h ▸ (r3_39_good hI).fair
  | 40, _, h, _ => Option.some.inj h ▸ (r3_40_good hI).fair
  | 41, _, h, _ => Option.some.inj h ▸ r3_41_fair hI
  | 42, _, h, _ => Option.some.inj h ▸ (r3_42_good hI).fair
  | 43, _, h, _ => Option.some.inj h ▸ (r3_43_good hI).fair
  | 44, _, h, _ => Option.some.inj h ▸ (r3_44_good hI).fair
  | 45, _, h, _ => Option.some.inj h ▸ (r3_45_good hI).fair
  | 46, _, h, _ => Option.some.inj h ▸ (r3_46_good hI).fair
  | 47, _, h, _ => Option.some.inj h ▸ (r3_47_good hI).fair
  | 48, _, h, _ => Option.some.inj h ▸ (r3_48_good hI).fair
  | 49, _, h, _ => Option.some.inj h ▸ (r3_49_good hI).fair
  | 50, _, h, _ => Option.some.inj h ▸ (r3_50_good hI).fair
  | _ + 51, _, h, _ => nomatch h

theorem fair4 (hI : I.Right) : ∀ i d, ruleset4[i]? = some d → (4, i) ∉ unsoundRules → d.Fair I :=
  fun i d h _ => (good4 hI i d h (by intro h; rw [unsoundRules, lossyRules] at h; simp at h)).fair

theorem fair5 (hI : I.Right) : ∀ i d, ruleset5[i]? = some d → (5, i) ∉ unsoundRules → d.Fair I
  | 0, _, h, _ => Option.some.inj h ▸ (r5_0_good hI).fair
  | 1, _, h, _ => Option.some.inj h ▸ (r5_1_good hI).fair
  | 2, _, h, _ => Option.some.inj h ▸ (r5_2_good hI).fair
  | 3, _, h, _ => Option.some.inj h ▸ r5_3_fair hI
  | 4, _, h, _ => Option.some.inj h ▸ (r5_4_good hI).fair
  | 5, _, h, _ => Option.some.inj h ▸ (r5_5_good hI).fair
  | 6, _, _, h' => (h' (by decide)).elim
  | 7, _, h, _ => Option.some.inj h ▸ (r5_7_good hI).fair
  | 8, _, h, _ => Option.some.inj h ▸ (r5_8_good hI).fair
  | 9, _, h, _ => Option.some.inj h ▸ (r5_9_good hI).fair
  | 10, _, h, _ => Option.some.inj h ▸ (r5_10_good hI).fair
  | 11, _, h, _ => Option.some.inj h ▸ (r5_11_good hI).fair
  | 12, _, h, _ => Option.some.inj h ▸ (r5_12_good hI).fair
  | 13, _, h, _ => Option.some.inj h ▸ (r5_13_good hI).fair
  | 14, _, h, _ => Option.some.inj h ▸ (r5_14_good hI).fair
  | 15, _, h, _ => Option.some.inj h ▸ (r5_15_good hI).fair
  | 16, _, h, _ => Option.some.inj h ▸ (r5_16_good hI).fair
  | 17, _, h, _ => Option.some.inj h ▸ (r5_17_good hI).fair
  | 18, _, h, _ => Option.some.inj h ▸ r5_18_fair hI
  | 19, _, h, _ => Option.some.inj h ▸ (r5_19_good hI).fair
  | 20, _, h, _ => Option.some.inj h ▸ (r5_20_good hI).fair
  | 21, _, h, _ => Option.some.inj h ▸ (r5_21_good hI).fair
  | 22, _, h, _ => Option.some.inj h ▸ (r5_22_good hI).fair
  | _ + 23, _, h, _ => nomatch h

theorem fair6 (hI : I.Right) : ∀ i d, ruleset6[i]? = some d → (6, i) ∉ unsoundRules → d.Fair I :=
  fun i d h _ => (good6 hI i d h (by intro h; rw [unsoundRules, lossyRules] at h; simp at h)).fair

theorem onward1 (hI : I.Right) : ∀ i d, ruleset1[i]? = some d → 6 ≤ i → i ≠ 7 → d.Onward I
  | 0, _, _, h, _ => absurd h (by decide)
  | 1, _, _, h, _ => absurd h (by decide)
  | 2, _, _, h, _ => absurd h (by decide)
  | 3, _, _, h, _ => absurd h (by decide)
  | 4, _, _, h, _ => absurd h (by decide)
  | 5, _, _, h, _ => absurd h (by decide)
  | 6, _, h, _, _ => Option.some.inj h ▸ r1_6_onward hI
  | 7, _, _, _, h => absurd rfl h
  | 8, _, h, _, _ => Option.some.inj h ▸ r1_8_onward hI
  | 9, _, h, _, _ => Option.some.inj h ▸ r1_9_onward hI
  | 10, _, h, _, _ => Option.some.inj h ▸ r1_10_onward hI
  | 11, _, h, _, _ => Option.some.inj h ▸ r1_11_onward hI
  | 12, _, h, _, _ => Option.some.inj h ▸ r1_12_onward hI
  | 13, _, h, _, _ => Option.some.inj h ▸ r1_13_onward hI
  | 14, _, h, _, _ => Option.some.inj h ▸ r1_14_onward hI
  | 15, _, h, _, _ => Option.some.inj h ▸ r1_15_onward hI
  | 16, _, h, _, _ => Option.some.inj h ▸ r1_16_onward hI
  | 17, _, h, _, _ => Option.some.inj h ▸ r1_17_onward hI
  | 18, _, h, _, _ => Option.some.inj h ▸ r1_18_onward hI
  | 19, _, h, _, _ => Option.some.inj h ▸ r1_19_onward hI
  | 20, _, h, _, _ => Option.some.inj h ▸ r1_20_onward hI
  | 21, _, h, _, _ => Option.some.inj h ▸ r1_21_onward hI
  | 22, _, h, _, _ => Option.some.inj h ▸ r1_22_onward hI
  | _ + 23, _, h, _, _ => nomatch h

theorem deriv1 : ∀ i d, ruleset1[i]? = some d → 6 ≤ i → ∃ p z, d.left = .deriv p z
  | 0, _, _, h => absurd h (by decide)
  | 1, _, _, h => absurd h (by decide)
  | 2, _, _, h => absurd h (by decide)
  | 3, _, _, h => absurd h (by decide)
  | 4, _, _, h => absurd h (by decide)
  | 5, _, _, h => absurd h (by decide)
  | 6, _, h, _ => Option.some.inj h ▸ ⟨_, _, rfl⟩
  | 7, _, h, _ => Option.some.inj h ▸ ⟨_, _, rfl⟩
  | 8, _, h, _ => Option.some.inj h ▸ ⟨_, _, rfl⟩
  | 9, _, h, _ => Option.some.inj h ▸ ⟨_, _, rfl⟩
  | 10, _, h, _ => Option.some.inj h ▸ ⟨_, _, rfl⟩
  | 11, _, h, _ => Option.some.inj h ▸ ⟨_, _, rfl⟩
  | 12, _, h, _ => Option.some.inj h ▸ ⟨_, _, rfl⟩
  | 13, _, h, _ => Option.some.inj h ▸ ⟨_, _, rfl⟩
  | 14, _, h, _ => Option.some.inj h ▸ ⟨_, _, rfl⟩
  | 15, _, h, _ => Option.some.inj h ▸ ⟨_, _, rfl⟩
  | 16, _, h, _ => Option.some.inj h ▸ ⟨_, _, rfl⟩
  | 17, _, h, _ => Option.some.inj h ▸ ⟨_, _, rfl⟩
  | 18, _, h, _ => Option.some.inj h ▸ ⟨_, _, rfl⟩
  | 19, _, h, _ => Option.some.inj h ▸ ⟨_, _, rfl⟩
  | 20, _, h, _ => Option.some.inj h ▸ ⟨_, _, rfl⟩
  | 21, _, h, _ => Option.some.inj h ▸ ⟨_, _, rfl⟩
  | 22, _, h, _ => Option.some.inj h ▸ ⟨_, _, rfl⟩
  | _ + 23, _, h, _ => nomatch h

end Verif.Rules
