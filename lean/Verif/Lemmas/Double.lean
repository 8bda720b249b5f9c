import Verif.Model.Double
import Mathlib.Tactic.Linarith
import Mathlib.Tactic.NormNum
import Mathlib.Tactic.Ring
import Mathlib.Tactic.Positivity
import Mathlib.Tactic.FieldSimp

/-! # Integers are rounded exactly up to 2^53 -/

namespace Verif.Dbl

theorem halfEven_int (n : ℤ) : halfEven (n : ℚ) = n := by
  simp [halfEven]

theorem round_of_int {q : ℚ} (h : |q| < 2 ^ (1024 : ℕ)) (hn : ∃ n : ℤ, q / 2 ^ lastBit q = n) : round q = fin q := by
  obtain ⟨n, hn⟩ := hn
  have h2 : (2 : ℚ) ^ lastBit q ≠ 0 := zpow_ne_zero _ (by norm_num)
  have hq : (n : ℚ) * 2 ^ lastBit q = q := by
    rw [← hn]; field_simp
  unfold round
  simp only [hn, halfEven_int, hq]
  rw [if_pos h]

theorem round_int {n : ℤ} (h : |n| ≤ 2 ^ 53) : round n = fin n := by
  have hq : |(n : ℚ)| ≤ 2 ^ 53 := by exact_mod_cast h
  refine round_of_int (lt_of_le_of_lt hq (pow_lt_pow_right₀ (by norm_num) (by norm_num))) ?_
  rcases eq_or_ne n 0 with rfl | hn
  · exact ⟨0, by simp⟩
  have hpos : (0 : ℚ) < |(n : ℚ)| := by
    have : (n : ℚ) ≠ 0 := by exact_mod_cast hn
    positivity
  rcases lt_or_eq_of_le hq with hlt | heq
  · have hlog : Int.log 2 |(n : ℚ)| < 53 := by
      refine (Int.lt_zpow_iff_log_lt (by norm_num) hpos).mp ?_
      exact_mod_cast hlt
    have hl : lastBit n ≤ 0 := by unfold lastBit; omega
    obtain ⟨k, hk⟩ := Int.eq_ofNat_of_zero_le (show 0 ≤ -lastBit (n : ℚ) by omega)
    refine ⟨n * 2 ^ k, ?_⟩
    have : lastBit (n : ℚ) = -(k : ℤ) := by omega
    rw [this, zpow_neg, zpow_natCast]
    push_cast
    field_simp
  · have hl : lastBit (n : ℚ) = 1 := by
      have : Int.log 2 |(n : ℚ)| = 53 := by
        rw [heq]
        have := Int.log_zpow (R := ℚ) (b := 2) (by norm_num) 53
        exact_mod_cast this
      unfold lastBit
      rw [this]; norm_num
    rw [hl]
    have : |n| = 2 ^ 53 := by exact_mod_cast heq
    rcases abs_eq (by norm_num) |>.mp this with h | h
    · exact ⟨2 ^ 52, by rw [h]; norm_num⟩
    · exact ⟨-2 ^ 52, by rw [h]; norm_num⟩

/-- Integers up to `N` are not changed by rounding. -/
def ExactTo (r : ℚ → Dbl) (N : ℕ) : Prop := ∀ n : ℤ, |n| ≤ N → r n = fin n

theorem exact_round : ExactTo round (2 ^ 53) := fun _ h => round_int (by exact_mod_cast h)

theorem exact_fin (N : ℕ) : ExactTo fin N := fun _ _ => rfl

theorem ExactTo.nat {r : ℚ → Dbl} {N : ℕ} (h : ExactTo r N) {n : ℕ} (hn : n ≤ N) : r (n : ℚ) = fin n := by
  have := h n (by rw [Nat.abs_cast]; exact_mod_cast hn)
  exact_mod_cast this

theorem truncQ_int (n : ℤ) : truncQ (n : ℚ) = n := by simp [truncQ]

theorem halfEven_error (x : ℚ) : |(halfEven x : ℚ) - x| ≤ 1 / 2 := by
  have h1 := Int.floor_le x
  have h2 := Int.lt_floor_add_one x
  unfold halfEven
  rw [abs_le]
  split
  · constructor <;> linarith
  · split
    · push_cast; constructor <;> linarith
    · split
      · constructor <;> linarith
      · push_cast; constructor <;> linarith

theorem two_pow_lastBit {q : ℚ} (hq : q ≠ 0) : (2 : ℚ) ^ lastBit q ≤ max (|q| * 2 ^ (-52 : ℤ)) (2 ^ (-1074 : ℤ)) := by
  unfold lastBit
  rcases le_total (Int.log 2 |q| - 52) (-1074) with h | h
  · rw [max_eq_right h]; exact le_max_right _ _
  · rw [max_eq_left h]
    refine le_trans ?_ (le_max_left _ _)
    rw [sub_eq_add_neg, zpow_add₀ (by norm_num)]
    exact mul_le_mul_of_nonneg_right (Int.zpow_log_le_self (by norm_num) (abs_pos.2 hq)) (by positivity)

/-- Rounding moves a number by at most one part in 2^53, or by 2^-1075. -/
theorem round_error (q : ℚ) (h : |q| ≤ 2 ^ (1023 : ℕ)) :
    ∃ q', round q = fin q' ∧ |q' - q| ≤ max (|q| * 2 ^ (-53 : ℤ)) (2 ^ (-1075 : ℤ)) := by
  rcases eq_or_ne q 0 with rfl | hq
  · refine ⟨0, by simpa using round_int (n := 0) (by simp), ?_⟩
    simp only [sub_self, abs_zero]
    exact le_max_of_le_right (zpow_pos (by norm_num) _).le
  have h2 : (0 : ℚ) < 2 ^ lastBit q := zpow_pos (by norm_num) _
  have herr : |(halfEven (q / 2 ^ lastBit q) : ℚ) * 2 ^ lastBit q - q| ≤ max (|q| * 2 ^ (-53 : ℤ)) (2 ^ (-1075 : ℤ)) := by
    have h3 : (halfEven (q / 2 ^ lastBit q) : ℚ) * 2 ^ lastBit q - q =
        ((halfEven (q / 2 ^ lastBit q) : ℚ) - q / 2 ^ lastBit q) * 2 ^ lastBit q := by
      rw [sub_mul, div_mul_cancel₀ _ h2.ne']
    rw [h3, abs_mul, abs_of_pos h2]
    calc |(halfEven (q / 2 ^ lastBit q) : ℚ) - q / 2 ^ lastBit q| * 2 ^ lastBit q
        ≤ 1 / 2 * max (|q| * 2 ^ (-52 : ℤ)) (2 ^ (-1074 : ℤ)) :=
          mul_le_mul (halfEven_error _) (two_pow_lastBit hq) h2.le (by norm_num)
      _ = max (|q| * 2 ^ (-53 : ℤ)) (2 ^ (-1075 : ℤ)) := by
          have e1 : (2 : ℚ) ^ (-53 : ℤ) = 1 / 2 * 2 ^ (-52 : ℤ) := by
            rw [show (-53 : ℤ) = -1 + -52 by norm_num, zpow_add₀ (by norm_num)]; norm_num
          have e2 : (2 : ℚ) ^ (-1075 : ℤ) = 1 / 2 * 2 ^ (-1074 : ℤ) := by
            rw [show (-1075 : ℤ) = -1 + -1074 by norm_num, zpow_add₀ (by norm_num), zpow_neg_one]; norm_num
          rw [mul_max_of_nonneg _ _ (by norm_num), e1, e2, mul_left_comm]
  refine ⟨_, ?_, herr⟩
  unfold round
  simp only
  rw [if_pos]
  have hM : (1 : ℚ) ≤ 2 ^ (1023 : ℕ) := one_le_pow₀ (by norm_num)
  have hM2 : (2 : ℚ) ^ (1024 : ℕ) = 2 * 2 ^ (1023 : ℕ) := by rw [pow_succ']
  rw [hM2]
  generalize (2 : ℚ) ^ (1023 : ℕ) = M at h hM ⊢
  have h4 : max (|q| * (2 : ℚ) ^ (-53 : ℤ)) (2 ^ (-1075 : ℤ)) ≤ 1 / 2 * M := by
    refine max_le ?_ ?_
    · have : (2 : ℚ) ^ (-53 : ℤ) ≤ 1 / 2 := by norm_num
      have := mul_le_mul h this (by positivity) (by linarith)
      linarith
    · have : (2 : ℚ) ^ (-1075 : ℤ) ≤ 2 ^ (-1 : ℤ) := zpow_le_zpow_right₀ (by norm_num) (by norm_num)
      rw [zpow_neg_one] at this
      linarith
  generalize (halfEven (q / 2 ^ lastBit q) : ℚ) * 2 ^ lastBit q = y at herr ⊢
  have h5 : |y| ≤ |y - q| + |q| := by
    calc |y| = |(y - q) + q| := by ring_nf
      _ ≤ _ := abs_add_le _ _
  have h6 := herr.trans h4
  clear herr h4 hM2
  linarith

end Verif.Dbl
