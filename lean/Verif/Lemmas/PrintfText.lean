import Verif.Model.Printf
import Verif.Spec.Drawing
import Mathlib.Tactic.IntervalCases

/-!
# The characters of written numbers
-/

namespace Verif.Printf
open Dbl

theorem isDecimal_iff {c : Char} : isDecimal c = true ↔ 48 ≤ c.toNat ∧ c.toNat ≤ 57 := by
  simp only [isDecimal, decide_eq_true_eq]
  exact Iff.rfl

theorem digit_toNat (n : ℕ) : (digit n).toNat = 48 + n % 10 := by
  unfold digit
  have : n % 10 < 10 := Nat.mod_lt _ (by norm_num)
  generalize n % 10 = k at this
  interval_cases k <;> rfl

theorem digit_decimal (n : ℕ) : isDecimal (digit n) = true := by
  rw [isDecimal_iff, digit_toNat]
  have : n % 10 < 10 := Nat.mod_lt _ (by norm_num)
  omega

theorem padded_decimal (k n : ℕ) : ∀ c ∈ padded k n, isDecimal c = true := by
  induction k generalizing n with
  | zero => simp [padded]
  | succ k ih =>
    intro c hc
    simp only [padded, List.mem_append, List.mem_singleton] at hc
    rcases hc with hc | rfl
    · exact ih _ c hc
    · exact digit_decimal n

theorem padded_length (k n : ℕ) : (padded k n).length = k := by
  induction k generalizing n with
  | zero => rfl
  | succ k ih => simp [padded, ih]

theorem toDigits_decimal (n : ℕ) : ∀ c ∈ Nat.toDigits 10 n, isDecimal c = true := by
  intro c hc
  have := Nat.isDigit_of_mem_toDigits (by norm_num) (by norm_num) hc
  simp only [Char.isDigit, Bool.and_eq_true, decide_eq_true_eq] at this
  rw [isDecimal_iff]
  exact this

theorem trim_sublist (s : Str) : (trim s).Sublist s := by
  unfold trim
  have h := (List.dropWhile_sublist (fun c : Char => c == '0') (l := s.reverse)).reverse
  simpa using h

theorem pointed_mem {a b : Str} {c : Char} (h : c ∈ pointed a b) : c ∈ a ∨ c = '.' ∨ c ∈ b := by
  have ht := trim_sublist b
  unfold pointed at h
  split at h
  · exact .inl h
  · rename_i x xs hx
    rw [hx] at ht
    simp only [List.mem_append, List.mem_cons] at h
    rcases h with h | h | h | h
    · exact .inl h
    · exact .inr (.inl h)
    · exact .inr (.inr (ht.subset (by simp [h])))
    · exact .inr (.inr (ht.subset (by simp [h])))

theorem pointed_ne {a b : Str} (h : a ≠ []) : pointed a b ≠ [] := by
  unfold pointed
  split
  · exact h
  · simp

/-- What occurs in written numbers. -/
def numeric (c : Char) : Bool := decide (32 < c.toNat ∧ c.toNat < 127)

theorem numeric_decimal {c : Char} (h : isDecimal c = true) : numeric c = true := by
  rw [isDecimal_iff] at h
  simp only [numeric, decide_eq_true_eq]
  omega

theorem minus_numeric (q : ℚ) : ∀ c ∈ minus q, numeric c = true := by
  unfold minus
  split
  · decide
  · simp

theorem fixed10_numeric (v : Dbl) : fixed10 v ≠ [] ∧ ∀ c ∈ fixed10 v, numeric c = true := by
  cases v with
  | nan => decide
  | inf b => cases b <;> decide
  | fin q =>
    simp only [fixed10]
    refine ⟨by simp, ?_⟩
    intro c hc
    simp only [List.mem_append] at hc
    rcases hc with ((hc | hc) | hc) | hc
    · exact minus_numeric q c hc
    · exact numeric_decimal (toDigits_decimal _ c hc)
    · revert c; decide
    · exact numeric_decimal (padded_decimal _ _ c hc)

theorem exponent_numeric (x : ℤ) : ∀ c ∈ exponent x, numeric c = true := by
  intro c hc
  simp only [exponent, List.mem_append] at hc
  rcases hc with (hc | hc) | hc
  · split at hc <;> revert c <;> decide
  · split at hc
    · revert c; decide
    · simp at hc
  · exact numeric_decimal (toDigits_decimal _ c hc)

theorem general_numeric (q : ℚ) : general q ≠ [] ∧ ∀ c ∈ general q, numeric c = true := by
  unfold general
  obtain ⟨m, x⟩ := sig10 q
  have hl := padded_length 10 m
  have hd := padded_decimal 10 m
  have key : ∀ {a b : Str}, a ≠ [] → (∀ c ∈ a, isDecimal c = true) → (∀ c ∈ b, isDecimal c = true) →
      pointed a b ≠ [] ∧ ∀ c ∈ pointed a b, numeric c = true := by
    intro a b h1 h2 h3
    refine ⟨pointed_ne h1, fun c hc => ?_⟩
    rcases pointed_mem hc with h | rfl | h
    · exact numeric_decimal (h2 c h)
    · decide
    · exact numeric_decimal (h3 c h)
  have htake : ∀ k, (padded 10 m).take (k + 1) ≠ [] := by
    intro k h
    have := congrArg List.length h
    rw [List.length_take, hl] at this
    simp at this
  have e1 : ∀ k, ∀ c ∈ (padded 10 m).take k, isDecimal c = true := fun k c hc => hd c (List.mem_of_mem_take hc)
  have e2 : ∀ k, ∀ c ∈ (padded 10 m).drop k, isDecimal c = true := fun k c hc => hd c (List.mem_of_mem_drop hc)
  dsimp only
  split
  · split
    · exact key (htake _) (e1 _) (e2 _)
    · refine key (by decide) (by decide) ?_
      intro c hc
      rcases List.mem_append.1 hc with hc | hc
      · rw [(List.mem_replicate.1 hc).2]; decide
      · exact hd c hc
  · obtain ⟨h1, h2⟩ := key (htake 0) (e1 1) (e2 1)
    refine ⟨fun h => h1 (List.append_eq_nil_iff.1 h).1, fun c hc => ?_⟩
    rcases List.mem_append.1 hc with hc | hc
    · exact h2 c hc
    · exact exponent_numeric x c hc

theorem general10_numeric (v : Dbl) : general10 v ≠ [] ∧ ∀ c ∈ general10 v, numeric c = true := by
  cases v with
  | nan => decide
  | inf b => cases b <;> decide
  | fin q =>
    simp only [general10]
    split
    · decide
    · obtain ⟨h1, h2⟩ := general_numeric |q|
      refine ⟨by simp [h1], fun c hc => ?_⟩
      rcases List.mem_append.1 hc with hc | hc
      · exact minus_numeric q c hc
      · exact h2 c hc

open DrawingSpec in
theorem fixed10_plain (v : Dbl) : DrawingSpec.Plain (fixed10 v) := by
  obtain ⟨h1, h2⟩ := fixed10_numeric v
  refine ⟨h1, fun c hc => ?_⟩
  have := h2 c hc
  simp only [numeric, decide_eq_true_eq] at this
  omega

theorem general10_plain (v : Dbl) : DrawingSpec.Plain (general10 v) := by
  obtain ⟨h1, h2⟩ := general10_numeric v
  refine ⟨h1, fun c hc => ?_⟩
  have := h2 c hc
  simp only [numeric, decide_eq_true_eq] at this
  omega

end Verif.Printf
