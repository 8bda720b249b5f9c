import Verif.Lemmas.RuleData
import Mathlib.Tactic.FieldSimp
import Mathlib.Tactic.LinearCombination

/-!
# Rules that keep the value

Where the left side of a rule has a value, the right side has the same value.
-/

namespace Verif.Rules
open Verif Topology
variable {I : Interp}

theorem single_congr {a b : ℝ} (h : a = b) : [a] = [b] := by rw [h]

macro "rule_ring" : tactic => `(tactic| first | rfl | ring1 | (field_simp; done) | (field_simp; ring1) | (push_cast; ring1))

macro "rule_close" : tactic => `(tactic| first
  | done
  | (refine single_congr ?_; rule_ring)
  | tauto
  | (refine And.intro ?_ (single_congr ?_); tauto; rule_ring))

theorem r0_0_good (hI : I.Right) : r0_0.Good I := by
  have := Fact.mk hI
  intro σ hs _ env h
  simp only [r0_0, rule_eqs, ] at h ⊢
  rule_close

theorem r0_1_good (hI : I.Right) : r0_1.Good I := by
  have := Fact.mk hI
  intro σ hs _ env h
  obtain ⟨x, hx⟩ := hs "x" (by decide) (by decide)
  simp only [r0_1, rule_eqs, hx] at h ⊢
  rule_close

theorem r0_2_good (hI : I.Right) : r0_2.Good I := by
  have := Fact.mk hI
  intro σ hs _ env h
  obtain ⟨x, hx⟩ := hs "x" (by decide) (by decide)
  simp only [r0_2, rule_eqs, hx] at h ⊢
  rule_close

theorem r0_3_good (hI : I.Right) : r0_3.Good I := by
  have := Fact.mk hI
  intro σ hs _ env h
  obtain ⟨x, hx⟩ := hs "x" (by decide) (by decide)
  simp only [r0_3, rule_eqs, hx] at h ⊢
  rule_close

theorem r0_4_good (hI : I.Right) : r0_4.Good I := by
  have := Fact.mk hI
  intro σ hs _ env h
  obtain ⟨x, hx⟩ := hs "x" (by decide) (by decide)
  simp only [r0_4, rule_eqs, hx] at h ⊢
  rule_close

theorem r0_5_good (hI : I.Right) : r0_5.Good I := by
  have := Fact.mk hI
  intro σ hs _ env h
  obtain ⟨x, hx⟩ := hs "x" (by decide) (by decide)
  simp only [r0_5, rule_eqs, hx] at h ⊢
  norm_num; exact h

theorem r0_6_good (hI : I.Right) : r0_6.Good I := by
  have := Fact.mk hI
  intro σ hs _ env h
  obtain ⟨x, hx⟩ := hs "x" (by decide) (by decide)
  obtain ⟨y, hy⟩ := hs "y" (by decide) (by decide)
  obtain ⟨z, hz⟩ := hs "z" (by decide) (by decide)
  simp only [r0_6, rule_eqs, hx, hy, hz] at h ⊢
  obtain ⟨⟨⟨⟨h1, h2⟩, h3⟩, h4⟩, h5⟩ := h
  exact ⟨⟨⟨h1, h2, h4⟩, mul_ne_zero h3 h5⟩, single_congr (by field_simp)⟩

theorem r0_7_good (hI : I.Right) : r0_7.Good I := by
  have := Fact.mk hI
  intro σ hs _ env h
  obtain ⟨x, hx⟩ := hs "x" (by decide) (by decide)
  obtain ⟨y, hy⟩ := hs "y" (by decide) (by decide)
  simp only [r0_7, rule_eqs, hx, hy] at h ⊢
  rule_close

theorem r0_8_good (hI : I.Right) : r0_8.Good I := by
  have := Fact.mk hI
  intro σ hs _ env h
  obtain ⟨x, hx⟩ := hs "x" (by decide) (by decide)
  simp only [r0_8, rule_eqs, hx] at h ⊢
  obtain ⟨h1, h2⟩ := h
  rw [fnV_log _ _ h2, fnV_ln _ h2.2.2]
  exact ⟨⟨h1, h2.2.2⟩, single_congr (by simp)⟩

theorem r0_9_good (hI : I.Right) : r0_9.Good I := by
  have := Fact.mk hI
  intro σ hs _ env h
  obtain ⟨x, hx⟩ := hs "x" (by decide) (by decide)
  simp only [r0_9, rule_eqs, hx] at h ⊢
  rule_close

theorem r0_10_good (hI : I.Right) : r0_10.Good I := by
  have := Fact.mk hI
  intro σ hs _ env h
  obtain ⟨x, hx⟩ := hs "x" (by decide) (by decide)
  simp only [r0_10, rule_eqs, hx] at h ⊢
  rule_close

theorem r0_11_good (hI : I.Right) : r0_11.Good I := by
  have := Fact.mk hI
  intro σ hs _ env h
  obtain ⟨x, hx⟩ := hs "x" (by decide) (by decide)
  simp only [r0_11, rule_eqs, hx] at h ⊢
  rule_close

theorem r0_12_good (hI : I.Right) : r0_12.Good I := by
  have := Fact.mk hI
  intro σ hs _ env h
  obtain ⟨x, hx⟩ := hs "x" (by decide) (by decide)
  obtain ⟨y, hy⟩ := hs "y" (by decide) (by decide)
  simp only [r0_12, rule_eqs, hx, hy] at h ⊢
  obtain ⟨h1, h2⟩ := h
  rw [fnV_root _ _ h2, fnV_pow _ _ h2.pow]
  exact ⟨⟨⟨h1.1, h1.2, h2.ne⟩, h2.pow⟩, rfl⟩

theorem r0_13_good (hI : I.Right) : r0_13.Good I := by
  have := Fact.mk hI
  intro σ hs _ env h
  simp only [r0_13, rule_eqs, ] at h ⊢
  obtain ⟨h1, h2⟩ := h
  rw [fnV_avg _ h2]
  exact ⟨⟨⟨h1, h1⟩, by simpa using h2⟩, rfl⟩

theorem r1_0_good (hI : I.Right) : r1_0.Good I := by
  have := Fact.mk hI
  intro σ hs _ env h
  obtain ⟨x, hx⟩ := hs "x" (by decide) (by decide)
  simp only [r1_0, rule_eqs, hx] at h ⊢
  rule_close

theorem r1_1_good (hI : I.Right) : r1_1.Good I := by
  have := Fact.mk hI
  intro σ hs _ env h
  obtain ⟨x, hx⟩ := hs "x" (by decide) (by decide)
  simp only [r1_1, rule_eqs, hx] at h ⊢
  rule_close

theorem r1_2_good (hI : I.Right) : r1_2.Good I := by
  have := Fact.mk hI
  intro σ hs _ env h
  obtain ⟨x, hx⟩ := hs "x" (by decide) (by decide)
  simp only [r1_2, rule_eqs, hx] at h ⊢
  rule_close

theorem r1_3_good (hI : I.Right) : r1_3.Good I := by
  have := Fact.mk hI
  intro σ hs _ env h
  obtain ⟨x, hx⟩ := hs "x" (by decide) (by decide)
  simp only [r1_3, rule_eqs, hx] at h ⊢
  rule_close

theorem r1_4_good (hI : I.Right) : r1_4.Good I := by
  have := Fact.mk hI
  intro σ hs _ env h
  obtain ⟨x, hx⟩ := hs "x" (by decide) (by decide)
  simp only [r1_4, rule_eqs, hx] at h ⊢
  rule_close

theorem r1_5_good (hI : I.Right) : r1_5.Good I := by
  have := Fact.mk hI
  intro σ hs _ env h
  obtain ⟨x, hx⟩ := hs "x" (by decide) (by decide)
  simp only [r1_5, rule_eqs, hx] at h ⊢
  rule_close

theorem r2_0_good (hI : I.Right) : r2_0.Good I := by
  have := Fact.mk hI
  intro σ hs _ env h
  obtain ⟨x, hx⟩ := hs "x" (by decide) (by decide)
  obtain ⟨y, hy⟩ := hs "y" (by decide) (by decide)
  simp only [r2_0, rule_eqs, hx, hy] at h ⊢
  rule_close

theorem r2_1_good (hI : I.Right) : r2_1.Good I := by
  have := Fact.mk hI
  intro σ hs _ env h
  obtain ⟨x, hx⟩ := hs "x" (by decide) (by decide)
  obtain ⟨y, hy⟩ := hs "y" (by decide) (by decide)
  simp only [r2_1, rule_eqs, hx, hy] at h ⊢
  rule_close

theorem r2_2_good (hI : I.Right) : r2_2.Good I := by
  have := Fact.mk hI
  intro σ hs _ env h
  obtain ⟨x, hx⟩ := hs "x" (by decide) (by decide)
  obtain ⟨y, hy⟩ := hs "y" (by decide) (by decide)
  simp only [r2_2, rule_eqs, hx, hy] at h ⊢
  rule_close

theorem r2_3_good (hI : I.Right) : r2_3.Good I := by
  have := Fact.mk hI
  intro σ hs _ env h
  obtain ⟨x, hx⟩ := hs "x" (by decide) (by decide)
  obtain ⟨y, hy⟩ := hs "y" (by decide) (by decide)
  simp only [r2_3, rule_eqs, hx, hy] at h ⊢
  rule_close

theorem r2_4_good (hI : I.Right) : r2_4.Good I := by
  have := Fact.mk hI
  intro σ hs _ env h
  simp only [r2_4, rule_eqs, ] at h ⊢
  rule_close

theorem r2_5_good (hI : I.Right) : r2_5.Good I := by
  have := Fact.mk hI
  intro σ hs _ env h
  simp only [r2_5, rule_eqs, ] at h ⊢
  rule_close

theorem r2_6_good (hI : I.Right) : r2_6.Good I := by
  have := Fact.mk hI
  intro σ hs _ env h
  obtain ⟨x, hx⟩ := hs "x" (by decide) (by decide)
  simp only [r2_6, rule_eqs, hx] at h ⊢
  rule_close

theorem r2_7_good (hI : I.Right) : r2_7.Good I := by
  have := Fact.mk hI
  intro σ hs _ env h
  obtain ⟨x, hx⟩ := hs "x" (by decide) (by decide)
  simp only [r2_7, rule_eqs, hx] at h ⊢
  rule_close

theorem r2_8_good (hI : I.Right) : r2_8.Good I := by
  have := Fact.mk hI
  intro σ hs _ env h
  obtain ⟨x, hx⟩ := hs "x" (by decide) (by decide)
  obtain ⟨y, hy⟩ := hs "y" (by decide) (by decide)
  simp only [r2_8, rule_eqs, hx, hy] at h ⊢
  rule_close

theorem r2_9_good (hI : I.Right) : r2_9.Good I := by
  have := Fact.mk hI
  intro σ hs _ env h
  simp only [r2_9, rule_eqs, ] at h ⊢
  rule_close

theorem r2_10_good (hI : I.Right) : r2_10.Good I := by
  have := Fact.mk hI
  intro σ hs _ env h
  simp only [r2_10, rule_eqs, ] at h ⊢
  rule_close

theorem r2_11_good (hI : I.Right) : r2_11.Good I := by
  have := Fact.mk hI
  intro σ hs _ env h
  obtain ⟨x, hx⟩ := hs "x" (by decide) (by decide)
  simp only [r2_11, rule_eqs, hx] at h ⊢
  rule_close

theorem r2_12_good (hI : I.Right) : r2_12.Good I := by
  have := Fact.mk hI
  intro σ hs _ env h
  obtain ⟨x, hx⟩ := hs "x" (by decide) (by decide)
  simp only [r2_12, rule_eqs, hx] at h ⊢
  rule_close

theorem r3_0_good (hI : I.Right) : r3_0.Good I := by
  have := Fact.mk hI
  intro σ hs _ env h
  simp only [r3_0, rule_eqs, ] at h ⊢

theorem r3_1_good (hI : I.Right) : r3_1.Good I := by
  have := Fact.mk hI
  intro σ hs _ env h
  obtain ⟨x, hx⟩ := hs "x" (by decide) (by decide)
  simp only [r3_1, rule_eqs, hx] at h ⊢
  rule_close

theorem r3_2_good (hI : I.Right) : r3_2.Good I := by
  have := Fact.mk hI
  intro σ hs _ env h
  simp only [r3_2, rule_eqs, ] at h ⊢

theorem r3_3_good (hI : I.Right) : r3_3.Good I := by
  have := Fact.mk hI
  intro σ hs _ env h
  obtain ⟨x, hx⟩ := hs "x" (by decide) (by decide)
  simp only [r3_3, rule_eqs, hx] at h ⊢
  rule_close

theorem r3_4_good (hI : I.Right) : r3_4.Good I := by
  have := Fact.mk hI
  intro σ hs _ env h
  simp only [r3_4, rule_eqs, ] at h ⊢
  rule_close

theorem r3_5_good (hI : I.Right) : r3_5.Good I := by
  have := Fact.mk hI
  intro σ hs _ env h
  simp only [r3_5, rule_eqs, ] at h ⊢
  rule_close

theorem r3_6_good (hI : I.Right) : r3_6.Good I := by
  have := Fact.mk hI
  intro σ hs _ env h
  simp only [r3_6, rule_eqs, ] at h ⊢
  rule_close

theorem r3_7_good (hI : I.Right) : r3_7.Good I := by
  have := Fact.mk hI
  intro σ hs _ env h
  simp only [r3_7, rule_eqs, ] at h ⊢
  rule_close

theorem r3_8_good (hI : I.Right) : r3_8.Good I := by
  have := Fact.mk hI
  intro σ hs _ env h
  simp only [r3_8, rule_eqs, ] at h ⊢
  rule_close

theorem r3_9_good (hI : I.Right) : r3_9.Good I := by
  have := Fact.mk hI
  intro σ hs _ env h
  obtain ⟨x, hx⟩ := hs "x" (by decide) (by decide)
  simp only [r3_9, rule_eqs, hx] at h ⊢
  rule_close

theorem r3_10_good (hI : I.Right) : r3_10.Good I := by
  have := Fact.mk hI
  intro σ hs hc env h
  obtain ⟨x, hx⟩ := hs "x" (by decide) (by decide)
  simp only [r3_10, rule_eqs, hx] at h ⊢
  rule_close

theorem r3_11_good (hI : I.Right) : r3_11.Good I := by
  have := Fact.mk hI
  intro σ hs _ env h
  obtain ⟨x, hx⟩ := hs "x" (by decide) (by decide)
  obtain ⟨y, hy⟩ := hs "y" (by decide) (by decide)
  simp only [r3_11, rule_eqs, hx, hy] at h ⊢
  rule_close

theorem r3_12_good (hI : I.Right) : r3_12.Good I := by
  have := Fact.mk hI
  intro σ hs _ env h
  obtain ⟨x, hx⟩ := hs "x" (by decide) (by decide)
  obtain ⟨y, hy⟩ := hs "y" (by decide) (by decide)
  simp only [r3_12, rule_eqs, hx, hy] at h ⊢
  rule_close

theorem r3_13_good (hI : I.Right) : r3_13.Good I := by
  have := Fact.mk hI
  intro σ hs hc env h
  obtain ⟨cx, hcx⟩ := hs "cx" (by decide) (by decide)
  obtain ⟨cy, hcy⟩ := hs "cy" (by decide) (by decide)
  simp only [r3_13, rule_eqs, hcx, hcy] at h ⊢
  rule_close

theorem r3_14_good (hI : I.Right) : r3_14.Good I := by
  have := Fact.mk hI
  intro σ hs hc env h
  obtain ⟨x, hx⟩ := hs "x" (by decide) (by decide)
  obtain ⟨y, hy⟩ := hs "y" (by decide) (by decide)
  simp only [r3_14, rule_eqs, hx, hy] at h ⊢
  have := hc (.opposite "x" "y") (by simp [r3_14]) x y env hx hy h.2.1 h.2.2.2.1
  rw [this]
  exact ⟨by tauto, single_congr (by ring)⟩

theorem r3_15_good (hI : I.Right) : r3_15.Good I := by
  have := Fact.mk hI
  intro σ hs _ env h
  obtain ⟨x, hx⟩ := hs "x" (by decide) (by decide)
  simp only [r3_15, rule_eqs, hx] at h ⊢
  rule_close

theorem r3_16_good (hI : I.Right) : r3_16.Good I := by
  have := Fact.mk hI
  intro σ hs _ env h
  obtain ⟨x, hx⟩ := hs "x" (by decide) (by decide)
  simp only [r3_16, rule_eqs, hx] at h ⊢
  rule_close

theorem r3_17_good (hI : I.Right) : r3_17.Good I := by
  have := Fact.mk hI
  intro σ hs _ env h
  obtain ⟨y, hy⟩ := hs "y" (by decide) (by decide)
  obtain ⟨x, hx⟩ := hs "x" (by decide) (by decide)
  simp only [r3_17, rule_eqs, hy, hx] at h ⊢
  rule_close

theorem r3_18_good (hI : I.Right) : r3_18.Good I := by
  have := Fact.mk hI
  intro σ hs hc env h
  obtain ⟨cx, hcx⟩ := hs "cx" (by decide) (by decide)
  obtain ⟨y, hy⟩ := hs "y" (by decide) (by decide)
  simp only [r3_18, rule_eqs, hcx, hy] at h ⊢
  rule_close

theorem r3_19_good (hI : I.Right) : r3_19.Good I := by
  have := Fact.mk hI
  intro σ hs hc env h
  obtain ⟨cx, hcx⟩ := hs "cx" (by decide) (by decide)
  obtain ⟨y, hy⟩ := hs "y" (by decide) (by decide)
  simp only [r3_19, rule_eqs, hcx, hy] at h ⊢
  rule_close

theorem r3_20_good (hI : I.Right) : r3_20.Good I := by
  have := Fact.mk hI
  intro σ hs _ env h
  obtain ⟨x, hx⟩ := hs "x" (by decide) (by decide)
  simp only [r3_20, rule_eqs, hx] at h ⊢
  rule_close

theorem r3_21_good (hI : I.Right) : r3_21.Good I := by
  have := Fact.mk hI
  intro σ hs _ env h
  obtain ⟨x, hx⟩ := hs "x" (by decide) (by decide)
  simp only [r3_21, rule_eqs, hx] at h ⊢
  rule_close

theorem r3_22_good (hI : I.Right) : r3_22.Good I := by
  have := Fact.mk hI
  intro σ hs hc env h
  obtain ⟨x, hx⟩ := hs "x" (by decide) (by decide)
  obtain ⟨y, hy⟩ := hs "y" (by decide) (by decide)
  simp only [r3_22, rule_eqs, hx, hy] at h ⊢
  rule_close

theorem r3_23_good (hI : I.Right) : r3_23.Good I := by
  have := Fact.mk hI
  intro σ hs hc env h
  obtain ⟨x, hx⟩ := hs "x" (by decide) (by decide)
  obtain ⟨y, hy⟩ := hs "y" (by decide) (by decide)
  simp only [r3_23, rule_eqs, hx, hy] at h ⊢
  rule_close

theorem r3_24_good (hI : I.Right) : r3_24.Good I := by
  have := Fact.mk hI
  intro σ hs hc env h
  obtain ⟨y, hy⟩ := hs "y" (by decide) (by decide)
  obtain ⟨x, hx⟩ := hs "x" (by decide) (by decide)
  simp only [r3_24, rule_eqs, hy, hx] at h ⊢
  rule_close

theorem r3_25_good (hI : I.Right) : r3_25.Good I := by
  have := Fact.mk hI
  intro σ hs hc env h
  obtain ⟨x, hx⟩ := hs "x" (by decide) (by decide)
  obtain ⟨y, hy⟩ := hs "y" (by decide) (by decide)
  simp only [r3_25, rule_eqs, hx, hy] at h ⊢
  rule_close

theorem r3_26_good (hI : I.Right) : r3_26.Good I := by
  have := Fact.mk hI
  intro σ hs hc env h
  obtain ⟨x, hx⟩ := hs "x" (by decide) (by decide)
  obtain ⟨y, hy⟩ := hs "y" (by decide) (by decide)
  simp only [r3_26, rule_eqs, hx, hy] at h ⊢
  rule_close

theorem r3_27_good (hI : I.Right) : r3_27.Good I := by
  have := Fact.mk hI
  intro σ hs _ env h
  obtain ⟨x, hx⟩ := hs "x" (by decide) (by decide)
  simp only [r3_27, rule_eqs, hx] at h ⊢
  rw [fnV_pow_zero _ h.2]

theorem r3_28_good (hI : I.Right) : r3_28.Good I := by
  have := Fact.mk hI
  intro σ hs _ env h
  obtain ⟨x, hx⟩ := hs "x" (by decide) (by decide)
  simp only [r3_28, rule_eqs, hx] at h ⊢
  rule_close

theorem r3_30_good (hI : I.Right) : r3_30.Good I := by
  have := Fact.mk hI
  intro σ hs hc env h
  obtain ⟨x, hx⟩ := hs "x" (by decide) (by decide)
  obtain ⟨cy, hcy⟩ := hs "cy" (by decide) (by decide)
  obtain ⟨cz, hcz⟩ := hs "cz" (by decide) (by decide)
  simp only [r3_30, rule_eqs, hx, hcy, hcz] at h ⊢
  have := h.2.1.2.add h.2.2.2.1.2
  rw [fnV_pow _ _ this, fnV_pow _ _ h.2.1.2, fnV_pow _ _ h.2.2.2.1.2]
  refine ⟨by tauto, single_congr ?_⟩
  rw [PowOk.rpow_add h.2.1.2 h.2.2.2.1.2]
  ring

theorem r3_31_good (hI : I.Right) : r3_31.Good I := by
  have := Fact.mk hI
  intro σ hs hc env h
  obtain ⟨cy, hcy⟩ := hs "cy" (by decide) (by decide)
  obtain ⟨x, hx⟩ := hs "x" (by decide) (by decide)
  obtain ⟨cz, hcz⟩ := hs "cz" (by decide) (by decide)
  simp only [r3_31, rule_eqs, hcy, hx, hcz] at h ⊢
  have := h.2.1.2.mul h.2.2.2.1.2
  rw [fnV_pow _ _ this, fnV_pow _ _ h.2.1.2, fnV_pow _ _ h.2.2.2.1.2]
  refine ⟨by tauto, single_congr ?_⟩
  rw [PowOk.mul_rpow h.2.1.2 h.2.2.2.1.2]
  ring

theorem r3_32_good (hI : I.Right) : r3_32.Good I := by
  have := Fact.mk hI
  intro σ hs _ env h
  obtain ⟨x, hx⟩ := hs "x" (by decide) (by decide)
  simp only [r3_32, rule_eqs, hx] at h ⊢
  rule_close

theorem r3_33_good (hI : I.Right) : r3_33.Good I := by
  have := Fact.mk hI
  intro σ hs _ env h
  obtain ⟨x, hx⟩ := hs "x" (by decide) (by decide)
  obtain ⟨y, hy⟩ := hs "y" (by decide) (by decide)
  simp only [r3_33, rule_eqs, hx, hy] at h ⊢
  have h2 := h.2.2.2.1.2
  have := h2.add ((powOk_one _).2 trivial)
  rw [fnV_pow _ _ this, fnV_pow _ _ h2]
  refine ⟨by tauto, single_congr ?_⟩
  rw [PowOk.rpow_add h2 ((powOk_one _).2 trivial), Real.rpow_one]
  ring

theorem r3_35_good (hI : I.Right) : r3_35.Good I := by
  have := Fact.mk hI
  intro σ hs _ env h
  obtain ⟨x, hx⟩ := hs "x" (by decide) (by decide)
  obtain ⟨y, hy⟩ := hs "y" (by decide) (by decide)
  simp only [r3_35, rule_eqs, hx, hy] at h ⊢
  have h2 := h.2.1.2
  have := h2.add ((powOk_one _).2 trivial)
  rw [fnV_pow _ _ this, fnV_pow _ _ h2]
  refine ⟨by tauto, single_congr ?_⟩
  rw [PowOk.rpow_add h2 ((powOk_one _).2 trivial), Real.rpow_one]
  ring

theorem r3_36_good (hI : I.Right) : r3_36.Good I := by
  have := Fact.mk hI
  intro σ hs _ env h
  obtain ⟨x, hx⟩ := hs "x" (by decide) (by decide)
  obtain ⟨z, hz⟩ := hs "z" (by decide) (by decide)
  obtain ⟨y, hy⟩ := hs "y" (by decide) (by decide)
  simp only [r3_36, rule_eqs, hx, hz, hy] at h ⊢
  have := h.2.2.2.1.2.add h.2.1.2
  rw [fnV_pow _ _ this, fnV_pow _ _ h.2.1.2, fnV_pow _ _ h.2.2.2.1.2]
  refine ⟨by tauto, single_congr ?_⟩
  rw [PowOk.rpow_add h.2.2.2.1.2 h.2.1.2]
  ring

theorem r3_38_good (hI : I.Right) : r3_38.Good I := by
  have := Fact.mk hI
  intro σ hs _ env h
  obtain ⟨x, hx⟩ := hs "x" (by decide) (by decide)
  simp only [r3_38, rule_eqs, hx] at h ⊢
  refine ⟨by tauto, single_congr ?_⟩
  linear_combination (-1) * Real.sin_sq_add_cos_sq (va I x env)

theorem r3_39_good (hI : I.Right) : r3_39.Good I := by
  have := Fact.mk hI
  intro σ hs _ env h
  obtain ⟨x, hx⟩ := hs "x" (by decide) (by decide)
  simp only [r3_39, rule_eqs, hx] at h ⊢
  refine ⟨by tauto, single_congr ?_⟩
  linear_combination (-1) * Real.sin_sq_add_cos_sq (va I x env)

theorem r3_40_good (hI : I.Right) : r3_40.Good I := by
  have := Fact.mk hI
  intro σ hs _ env h
  obtain ⟨x, hx⟩ := hs "x" (by decide) (by decide)
  simp only [r3_40, rule_eqs, hx] at h ⊢
  rule_close

theorem r3_42_good (hI : I.Right) : r3_42.Good I := by
  have := Fact.mk hI
  intro σ hs _ env h
  obtain ⟨x, hx⟩ := hs "x" (by decide) (by decide)
  simp only [r3_42, rule_eqs, hx] at h ⊢
  obtain ⟨h1, h2⟩ := h
  have e := dup_min hI ((σ "[xs]").map (va I · env)) ((σ "[ys]").map (va I · env)) ((σ "[zs]").map (va I · env)) (va I x env)
  exact ⟨⟨by tauto, e.1.1 h2⟩, single_congr e.2.symm⟩

theorem r3_43_good (hI : I.Right) : r3_43.Good I := by
  have := Fact.mk hI
  intro σ hs _ env h
  obtain ⟨x, hx⟩ := hs "x" (by decide) (by decide)
  simp only [r3_43, rule_eqs, hx] at h ⊢
  obtain ⟨h1, h2⟩ := h
  have e := dup_max hI ((σ "[xs]").map (va I · env)) ((σ "[ys]").map (va I · env)) ((σ "[zs]").map (va I · env)) (va I x env)
  exact ⟨⟨by tauto, e.1.1 h2⟩, single_congr e.2.symm⟩

theorem r3_44_good (hI : I.Right) : r3_44.Good I := by
  have := Fact.mk hI
  intro σ hs hc env h
  obtain ⟨x, hx⟩ := hs "x" (by decide) (by decide)
  obtain ⟨y, hy⟩ := hs "y" (by decide) (by decide)
  simp only [r3_44, rule_eqs, hx, hy] at h ⊢
  obtain ⟨k, hk⟩ := hc (.even "y") (by simp [r3_44]) y env hy h.1.2
  obtain ⟨h1, h2⟩ := h
  rw [hk] at h2 ⊢
  obtain ⟨h3, h4⟩ := PowOk.neg_even h2
  rw [fnV_pow _ _ h3, fnV_pow _ _ h2, h4]
  exact ⟨⟨h1, h3⟩, rfl⟩

theorem r3_45_good (hI : I.Right) : r3_45.Good I := by
  have := Fact.mk hI
  intro σ hs hc env h
  obtain ⟨cX, hcX⟩ := hs "cX" (by decide) (by decide)
  obtain ⟨cY, hcY⟩ := hs "cY" (by decide) (by decide)
  simp only [r3_45, rule_eqs, hcX, hcY] at h ⊢
  rule_close

theorem r3_46_good (hI : I.Right) : r3_46.Good I := by
  have := Fact.mk hI
  intro σ hs hc env h
  obtain ⟨x, hx⟩ := hs "x" (by decide) (by decide)
  obtain ⟨y, hy⟩ := hs "y" (by decide) (by decide)
  obtain ⟨cX, hcX⟩ := hs "cX" (by decide) (by decide)
  simp only [r3_46, rule_eqs, hx, hy, hcX] at h ⊢
  rule_close

theorem r3_47_good (hI : I.Right) : r3_47.Good I := by
  have := Fact.mk hI
  intro σ hs hc env h
  obtain ⟨x, hx⟩ := hs "x" (by decide) (by decide)
  obtain ⟨cX, hcX⟩ := hs "cX" (by decide) (by decide)
  simp only [r3_47, rule_eqs, hx, hcX] at h ⊢
  rule_close

theorem r3_48_good (hI : I.Right) : r3_48.Good I := by
  have := Fact.mk hI
  intro σ hs hc env h
  obtain ⟨cX, hcX⟩ := hs "cX" (by decide) (by decide)
  obtain ⟨cY, hcY⟩ := hs "cY" (by decide) (by decide)
  simp only [r3_48, rule_eqs, hcX, hcY] at h ⊢
  rule_close

theorem r3_49_good (hI : I.Right) : r3_49.Good I := by
  have := Fact.mk hI
  intro σ hs hc env h
  obtain ⟨x, hx⟩ := hs "x" (by decide) (by decide)
  obtain ⟨y, hy⟩ := hs "y" (by decide) (by decide)
  obtain ⟨cX, hcX⟩ := hs "cX" (by decide) (by decide)
  simp only [r3_49, rule_eqs, hx, hy, hcX] at h ⊢
  rule_close

theorem r3_50_good (hI : I.Right) : r3_50.Good I := by
  have := Fact.mk hI
  intro σ hs hc env h
  obtain ⟨x, hx⟩ := hs "x" (by decide) (by decide)
  obtain ⟨cX, hcX⟩ := hs "cX" (by decide) (by decide)
  simp only [r3_50, rule_eqs, hx, hcX] at h ⊢
  rule_close

theorem r4_0_good (hI : I.Right) : r4_0.Good I := by
  have := Fact.mk hI
  intro σ hs _ env h
  obtain ⟨x, hx⟩ := hs "x" (by decide) (by decide)
  simp only [r4_0, rule_eqs, hx] at h ⊢
  rule_close

theorem r4_1_good (hI : I.Right) : r4_1.Good I := by
  have := Fact.mk hI
  intro σ hs _ env h
  obtain ⟨x, hx⟩ := hs "x" (by decide) (by decide)
  simp only [r4_1, rule_eqs, hx] at h ⊢
  rule_close

theorem r4_2_good (hI : I.Right) : r4_2.Good I := by
  have := Fact.mk hI
  intro σ hs _ env h
  obtain ⟨x, hx⟩ := hs "x" (by decide) (by decide)
  simp only [r4_2, rule_eqs, hx] at h ⊢
  rule_close

theorem r4_3_good (hI : I.Right) : r4_3.Good I := by
  have := Fact.mk hI
  intro σ hs _ env h
  simp only [r4_3, rule_eqs, ] at h ⊢
  rule_close

theorem r4_4_good (hI : I.Right) : r4_4.Good I := by
  have := Fact.mk hI
  intro σ hs _ env h
  obtain ⟨x, hx⟩ := hs "x" (by decide) (by decide)
  simp only [r4_4, rule_eqs, hx] at h ⊢
  rule_close

theorem r4_5_good (hI : I.Right) : r4_5.Good I := by
  have := Fact.mk hI
  intro σ hs _ env h
  obtain ⟨x, hx⟩ := hs "x" (by decide) (by decide)
  simp only [r4_5, rule_eqs, hx] at h ⊢
  rule_close

theorem r4_6_good (hI : I.Right) : r4_6.Good I := by
  have := Fact.mk hI
  intro σ hs _ env h
  obtain ⟨x, hx⟩ := hs "x" (by decide) (by decide)
  simp only [r4_6, rule_eqs, hx] at h ⊢
  rule_close

theorem r4_7_good (hI : I.Right) : r4_7.Good I := by
  have := Fact.mk hI
  intro σ hs _ env h
  obtain ⟨x, hx⟩ := hs "x" (by decide) (by decide)
  simp only [r4_7, rule_eqs, hx] at h ⊢
  rule_close

theorem r4_8_good (hI : I.Right) : r4_8.Good I := by
  have := Fact.mk hI
  intro σ hs _ env h
  simp only [r4_8, rule_eqs, ] at h ⊢

theorem r4_9_good (hI : I.Right) : r4_9.Good I := by
  have := Fact.mk hI
  intro σ hs _ env h
  simp only [r4_9, rule_eqs, ] at h ⊢

theorem r5_0_good (hI : I.Right) : r5_0.Good I := by
  have := Fact.mk hI
  intro σ hs _ env h
  obtain ⟨x, hx⟩ := hs "x" (by decide) (by decide)
  simp only [r5_0, rule_eqs, hx] at h ⊢
  rule_close

theorem r5_1_good (hI : I.Right) : r5_1.Good I := by
  have := Fact.mk hI
  intro σ hs _ env h
  obtain ⟨x, hx⟩ := hs "x" (by decide) (by decide)
  simp only [r5_1, rule_eqs, hx] at h ⊢
  rule_close

theorem r5_2_good (hI : I.Right) : r5_2.Good I := by
  have := Fact.mk hI
  intro σ hs _ env h
  obtain ⟨x, hx⟩ := hs "x" (by decide) (by decide)
  simp only [r5_2, rule_eqs, hx] at h ⊢
  rule_close

theorem r5_4_good (hI : I.Right) : r5_4.Good I := by
  have := Fact.mk hI
  intro σ hs _ env h
  obtain ⟨x, hx⟩ := hs "x" (by decide) (by decide)
  simp only [r5_4, rule_eqs, hx] at h ⊢
  rule_close

theorem r5_5_good (hI : I.Right) : r5_5.Good I := by
  have := Fact.mk hI
  intro σ hs _ env h
  obtain ⟨x, hx⟩ := hs "x" (by decide) (by decide)
  simp only [r5_5, rule_eqs, hx] at h ⊢
  rule_close

theorem r5_7_good (hI : I.Right) : r5_7.Good I := by
  have := Fact.mk hI
  intro σ hs _ env h
  obtain ⟨x, hx⟩ := hs "x" (by decide) (by decide)
  simp only [r5_7, rule_eqs, hx] at h ⊢
  rule_close

theorem r5_8_good (hI : I.Right) : r5_8.Good I := by
  have := Fact.mk hI
  intro σ hs hc env h
  obtain ⟨x, hx⟩ := hs "x" (by decide) (by decide)
  obtain ⟨y, hy⟩ := hs "y" (by decide) (by decide)
  obtain ⟨z, hz⟩ := hs "z" (by decide) (by decide)
  simp only [r5_8, rule_eqs, hx, hy, hz] at h ⊢
  rule_close

theorem r5_9_good (hI : I.Right) : r5_9.Good I := by
  have := Fact.mk hI
  intro σ hs _ env h
  obtain ⟨x, hx⟩ := hs "x" (by decide) (by decide)
  obtain ⟨y, hy⟩ := hs "y" (by decide) (by decide)
  obtain ⟨z, hz⟩ := hs "z" (by decide) (by decide)
  simp only [r5_9, rule_eqs, hx, hy, hz] at h ⊢
  rule_close

theorem r5_10_good (hI : I.Right) : r5_10.Good I := by
  have := Fact.mk hI
  intro σ hs _ env h
  obtain ⟨x, hx⟩ := hs "x" (by decide) (by decide)
  obtain ⟨y, hy⟩ := hs "y" (by decide) (by decide)
  obtain ⟨z, hz⟩ := hs "z" (by decide) (by decide)
  simp only [r5_10, rule_eqs, hx, hy, hz] at h ⊢
  rule_close

theorem r5_11_good (hI : I.Right) : r5_11.Good I := by
  have := Fact.mk hI
  intro σ hs hc env h
  obtain ⟨z, hz⟩ := hs "z" (by decide) (by decide)
  obtain ⟨x, hx⟩ := hs "x" (by decide) (by decide)
  obtain ⟨y, hy⟩ := hs "y" (by decide) (by decide)
  simp only [r5_11, rule_eqs, hz, hx, hy] at h ⊢
  rule_close

theorem r5_12_good (hI : I.Right) : r5_12.Good I := by
  have := Fact.mk hI
  intro σ hs _ env h
  obtain ⟨x, hx⟩ := hs "x" (by decide) (by decide)
  simp only [r5_12, rule_eqs, hx] at h ⊢
  rule_close

theorem r5_13_good (hI : I.Right) : r5_13.Good I := by
  have := Fact.mk hI
  intro σ hs _ env h
  obtain ⟨x, hx⟩ := hs "x" (by decide) (by decide)
  simp only [r5_13, rule_eqs, hx] at h ⊢
  rule_close

theorem r5_14_good (hI : I.Right) : r5_14.Good I := by
  have := Fact.mk hI
  intro σ hs _ env h
  obtain ⟨x, hx⟩ := hs "x" (by decide) (by decide)
  obtain ⟨y, hy⟩ := hs "y" (by decide) (by decide)
  simp only [r5_14, rule_eqs, hx, hy] at h ⊢
  rule_close

theorem r5_15_good (hI : I.Right) : r5_15.Good I := by
  have := Fact.mk hI
  intro σ hs _ env h
  obtain ⟨x, hx⟩ := hs "x" (by decide) (by decide)
  obtain ⟨y, hy⟩ := hs "y" (by decide) (by decide)
  simp only [r5_15, rule_eqs, hx, hy] at h ⊢
  rule_close

theorem r5_16_good (hI : I.Right) : r5_16.Good I := by
  have := Fact.mk hI
  intro σ hs _ env h
  obtain ⟨x, hx⟩ := hs "x" (by decide) (by decide)
  obtain ⟨y, hy⟩ := hs "y" (by decide) (by decide)
  simp only [r5_16, rule_eqs, hx, hy] at h ⊢
  rule_close

theorem r5_17_good (hI : I.Right) : r5_17.Good I := by
  have := Fact.mk hI
  intro σ hs _ env h
  obtain ⟨x, hx⟩ := hs "x" (by decide) (by decide)
  simp only [r5_17, rule_eqs, hx] at h ⊢
  obtain ⟨h1, h2⟩ := h
  rw [fnV_root _ _ h2, Real.sqrt_eq_rpow]
  exact ⟨⟨h1, h2.nonneg⟩, rfl⟩

theorem r5_19_good (hI : I.Right) : r5_19.Good I := by
  have := Fact.mk hI
  intro σ hs _ env h
  obtain ⟨x, hx⟩ := hs "x" (by decide) (by decide)
  obtain ⟨y, hy⟩ := hs "y" (by decide) (by decide)
  obtain ⟨z, hz⟩ := hs "z" (by decide) (by decide)
  simp only [r5_19, rule_eqs, hx, hy, hz] at h ⊢
  rule_close

theorem r5_20_good (hI : I.Right) : r5_20.Good I := by
  have := Fact.mk hI
  intro σ hs _ env h
  obtain ⟨x, hx⟩ := hs "x" (by decide) (by decide)
  obtain ⟨y, hy⟩ := hs "y" (by decide) (by decide)
  obtain ⟨z, hz⟩ := hs "z" (by decide) (by decide)
  simp only [r5_20, rule_eqs, hx, hy, hz] at h ⊢
  rule_close

theorem r5_21_good (hI : I.Right) : r5_21.Good I := by
  have := Fact.mk hI
  intro σ hs _ env h
  obtain ⟨x, hx⟩ := hs "x" (by decide) (by decide)
  simp only [r5_21, rule_eqs, hx] at h ⊢
  rule_close

theorem r5_22_good (hI : I.Right) : r5_22.Good I := by
  have := Fact.mk hI
  intro σ hs hc env h
  obtain ⟨x, hx⟩ := hs "x" (by decide) (by decide)
  simp only [r5_22, rule_eqs, hx] at h ⊢
  rule_close

theorem r6_0_good (hI : I.Right) : r6_0.Good I := by
  have := Fact.mk hI
  intro σ hs hc env h
  obtain ⟨x, hx⟩ := hs "x" (by decide) (by decide)
  obtain ⟨y, hy⟩ := hs "y" (by decide) (by decide)
  simp only [r6_0, rule_eqs, hx, hy] at h ⊢
  rule_close

end Verif.Rules
