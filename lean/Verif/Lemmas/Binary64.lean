import Verif.Lemmas.Double
import Verif.Spec.Binary64
import Verif.Lemmas.Printf

/-! # Rounding yields the nearest double -/

namespace Verif.Dbl
open DoubleSpec

theorem halfEven_nearest (z : ℚ) (n : ℤ) : |(halfEven z : ℚ) - z| ≤ |(n : ℚ) - z| := by
  by_cases h : |z - n| < 1 / 2
  · rw [Printf.halfEven_near h]
  · rw [abs_sub_comm z] at h
    exact (halfEven_error z).trans (not_lt.1 h)

/-- The last bit: numbers below 53 bits of it. -/
theorem lastBit_upper (q : ℚ) : |q| < 2 ^ (lastBit q + 53) := by
  have h1 : |q| < (2 : ℚ) ^ (Int.log 2 |q| + 1) := by
    have := Int.lt_zpow_succ_log_self (R := ℚ) (b := 2) (by norm_num) |q|
    exact_mod_cast this
  refine h1.trans_le (zpow_le_zpow_right₀ (by norm_num) ?_)
  unfold lastBit
  omega

theorem lastBit_lower {q : ℚ} (hq : q ≠ 0) (h : -1074 < lastBit q) : 2 ^ (lastBit q + 52) ≤ |q| := by
  have h1 : (2 : ℚ) ^ Int.log 2 |q| ≤ |q| := by
    have := Int.zpow_log_le_self (R := ℚ) (b := 2) (by norm_num) (abs_pos.2 hq)
    exact_mod_cast this
  have : lastBit q + 52 = Int.log 2 |q| := by
    unfold lastBit at h ⊢
    omega
  rw [this]
  exact h1

theorem le_lastBit (q : ℚ) : -1074 ≤ lastBit q := le_max_right _ _

/-- A multiple of a power of two with at least this exponent. -/
theorem multiple {e k : ℤ} (h : k ≤ e) (m : ℤ) : ∃ n : ℤ, (m : ℚ) * 2 ^ e = n * 2 ^ k := by
  obtain ⟨d, hd⟩ := Int.eq_ofNat_of_zero_le (show 0 ≤ e - k by omega)
  refine ⟨m * 2 ^ d, ?_⟩
  rw [show e = (d : ℤ) + k by omega, zpow_add₀ (by norm_num), zpow_natCast]
  push_cast
  ring

theorem abs_int_lt_pow {m : ℤ} (h : |m| < 2 ^ 53) (e : ℤ) : |(m : ℚ) * 2 ^ e| < 2 ^ (e + 53) := by
  have hp : (0 : ℚ) < 2 ^ e := zpow_pos (by norm_num) _
  have hm : |(m : ℚ)| < 2 ^ 53 := by exact_mod_cast h
  rw [abs_mul, abs_of_pos hp, zpow_add₀ (by norm_num), mul_comm]
  exact mul_lt_mul_of_pos_left (by exact_mod_cast hm) hp

/-- A double is a multiple of a last bit of its size, or smaller. -/
theorem binary64_multiple {x : ℚ} (h : Binary64 x) {q : ℚ} (hx : 2 ^ (lastBit q + 52) ≤ |x| ∨ lastBit q = -1074) :
    ∃ n : ℤ, x = n * 2 ^ lastBit q := by
  obtain ⟨m, e, hm, h1, h2, rfl⟩ := h
  refine multiple ?_ m
  rcases hx with hx | hx
  · by_contra hc
    have h3 := abs_int_lt_pow hm e
    have : (2 : ℚ) ^ (e + 53) ≤ 2 ^ (lastBit q + 52) := zpow_le_zpow_right₀ (by norm_num) (by omega)
    linarith
  · omega

theorem binary64_lt {x : ℚ} (h : Binary64 x) : |x| < 2 ^ (1024 : ℕ) := by
  obtain ⟨m, e, hm, h1, h2, rfl⟩ := h
  refine (abs_int_lt_pow hm e).trans_le ?_
  have : (2 : ℚ) ^ (1024 : ℕ) = 2 ^ (1024 : ℤ) := by rw [← zpow_natCast]; rfl
  rw [this]
  exact zpow_le_zpow_right₀ (by norm_num) (by omega)

theorem binary64_zero : Binary64 0 := ⟨0, 0, by norm_num, by norm_num, by norm_num, by norm_num⟩

theorem Binary64.neg {x : ℚ} (h : Binary64 x) : Binary64 (-x) := by
  obtain ⟨m, e, hm, h1, h2, rfl⟩ := h
  exact ⟨-m, e, by rwa [abs_neg], h1, h2, by push_cast; ring⟩

/-- A double is not changed. -/
theorem round_binary64 {x : ℚ} (h : Binary64 x) : round x = fin x := by
  rcases eq_or_ne x 0 with rfl | hx
  · simpa using round_int (n := 0) (by norm_num)
  refine round_of_int (binary64_lt h) ?_
  obtain ⟨n, hn⟩ := binary64_multiple h (q := x) (by
    rcases (le_lastBit x).lt_or_eq with h1 | h1
    · exact .inl (lastBit_lower hx h1)
    · exact .inr h1.symm)
  refine ⟨n, ?_⟩
  have hp : (2 : ℚ) ^ lastBit x ≠ 0 := zpow_ne_zero _ (by norm_num)
  generalize (2 : ℚ) ^ lastBit x = u at hn hp
  rw [hn]
  field_simp

/-- What `round` computes before the range is checked. -/
def rounded (q : ℚ) : ℚ := halfEven (q / 2 ^ lastBit q) * 2 ^ lastBit q

theorem round_def (q : ℚ) : round q = if |rounded q| < 2 ^ (1024 : ℕ) then fin (rounded q) else inf (decide (rounded q < 0)) := rfl

/-- No multiple of the last bit is nearer. -/
theorem rounded_nearest (q : ℚ) (n : ℤ) : |rounded q - q| ≤ |(n : ℚ) * 2 ^ lastBit q - q| := by
  unfold rounded
  have hp : (0 : ℚ) < 2 ^ lastBit q := zpow_pos (by norm_num) _
  generalize (2 : ℚ) ^ lastBit q = u at hp
  have h := halfEven_nearest (q / u) n
  have e : ∀ y : ℚ, |y * u - q| = |y - q / u| * u := by
    intro y
    rw [← abs_of_pos hp, ← abs_mul, abs_of_pos hp, sub_mul, div_mul_cancel₀ _ hp.ne']
  rw [e, e]
  exact mul_le_mul_of_nonneg_right h hp.le

/-- No double is nearer. -/
theorem rounded_best {q y : ℚ} (hy : Binary64 y) : |rounded q - q| ≤ |y - q| := by
  rcases eq_or_ne q 0 with rfl | hq
  · have : rounded 0 = 0 := by
      unfold rounded
      rw [zero_div, show (0 : ℚ) = ((0 : ℤ) : ℚ) by norm_num, halfEven_int]
      norm_num
    rw [this]
    simp
  by_cases hc : 2 ^ (lastBit q + 52) ≤ |y| ∨ lastBit q = -1074
  · obtain ⟨n, hn⟩ := binary64_multiple hy hc
    rw [hn]
    exact rounded_nearest q n
  · rw [not_or, not_le] at hc
    have hl := lastBit_lower hq (lt_of_le_of_ne (le_lastBit q) (Ne.symm hc.2))
    have hp : (2 : ℚ) ^ (lastBit q + 52) = ((2 ^ 52 : ℤ) : ℚ) * 2 ^ lastBit q := by
      rw [add_comm, zpow_add₀ (by norm_num)]; norm_num
    obtain ⟨h1, -⟩ := hc
    have h2 := abs_lt.1 h1
    rcases le_total 0 q with h0 | h0
    · refine (rounded_nearest q (2 ^ 52)).trans ?_
      rw [← hp]
      rw [abs_of_nonneg h0] at hl
      rw [abs_of_nonpos (by linarith), abs_of_nonpos (by linarith)]
      linarith
    · refine (rounded_nearest q (-2 ^ 52)).trans ?_
      have : (((-2 ^ 52 : ℤ) : ℚ)) * 2 ^ lastBit q = -2 ^ (lastBit q + 52) := by rw [hp]; push_cast; ring
      rw [this]
      rw [abs_of_nonpos h0] at hl
      rw [abs_of_nonneg (by linarith), abs_of_nonneg (by linarith)]
      linarith

theorem rounded_bits (q : ℚ) : |halfEven (q / 2 ^ lastBit q)| ≤ 2 ^ 53 := by
  have hp : (0 : ℚ) < 2 ^ lastBit q := zpow_pos (by norm_num) _
  have h1 := lastBit_upper q
  rw [zpow_add₀ (by norm_num)] at h1
  generalize (2 : ℚ) ^ lastBit q = u at hp h1 ⊢
  have h2 : |q / u| < 2 ^ 53 := by
    rw [abs_div, abs_of_pos hp, div_lt_iff₀ hp, mul_comm]
    exact_mod_cast h1
  have h3 := halfEven_error (q / u)
  have h4 : |(halfEven (q / u) : ℚ)| < 2 ^ 53 + 1 := by
    have := abs_sub_abs_le_abs_sub (halfEven (q / u) : ℚ) (q / u)
    linarith
  have h5 : |halfEven (q / u)| < 2 ^ 53 + 1 := by exact_mod_cast h4
  omega

theorem rounded_large {q : ℚ} (hq : q ≠ 0) (h : -1074 < lastBit q) : 2 ^ 52 ≤ |halfEven (q / 2 ^ lastBit q)| := by
  have hp : (0 : ℚ) < 2 ^ lastBit q := zpow_pos (by norm_num) _
  have h1 := lastBit_lower hq h
  rw [zpow_add₀ (by norm_num)] at h1
  generalize (2 : ℚ) ^ lastBit q = u at hp h1 ⊢
  have h2 : 2 ^ 52 ≤ |q / u| := by
    rw [abs_div, abs_of_pos hp, le_div_iff₀ hp, mul_comm]
    exact_mod_cast h1
  have h3 := halfEven_error (q / u)
  have h4 : (2 : ℚ) ^ 52 - 1 < |(halfEven (q / u) : ℚ)| := by
    have := abs_sub_abs_le_abs_sub (q / u) (halfEven (q / u) : ℚ)
    rw [abs_sub_comm] at h3
    linarith
  have h5 : 2 ^ 52 - 1 < |halfEven (q / u)| := by exact_mod_cast h4
  omega

theorem rounded_binary64 {q : ℚ} (h : |rounded q| < 2 ^ (1024 : ℕ)) : Binary64 (rounded q) := by
  have hb := rounded_bits q
  have h2 : (2 : ℚ) ^ (1024 : ℕ) = 2 ^ (1024 : ℤ) := by rw [← zpow_natCast]; rfl
  rw [h2] at h
  have key : ∀ (m j : ℤ), |rounded q| = |(m : ℚ)| * 2 ^ j → (2 : ℤ) ^ 52 ≤ |m| → j ≤ 971 := by
    intro m j h1 h3
    by_contra hc
    have h3 : (2 : ℚ) ^ (52 : ℤ) ≤ |(m : ℚ)| := by exact_mod_cast h3
    have h4 : (2 : ℚ) ^ (1024 : ℤ) ≤ 2 ^ (52 + j) := zpow_le_zpow_right₀ (by norm_num) (by omega)
    rw [zpow_add₀ (by norm_num)] at h4
    have h5 : (0 : ℚ) < 2 ^ j := zpow_pos (by norm_num) _
    have := mul_le_mul_of_nonneg_right h3 h5.le
    rw [h1] at h
    exact absurd (h4.trans this) (not_le.2 h)
  have habs : |rounded q| = |((halfEven (q / 2 ^ lastBit q) : ℤ) : ℚ)| * 2 ^ lastBit q := by
    have hp : (0 : ℚ) < 2 ^ lastBit q := zpow_pos (by norm_num) _
    rw [rounded, abs_mul, abs_of_pos hp]
  rcases hb.lt_or_eq with hb | hb
  · rcases eq_or_ne q 0 with rfl | hq
    · refine ⟨0, 0, by norm_num, by norm_num, by norm_num, ?_⟩
      unfold rounded
      rw [zero_div, show (0 : ℚ) = ((0 : ℤ) : ℚ) by norm_num, halfEven_int]
      norm_num
    · refine ⟨_, _, hb, le_lastBit q, ?_, rfl⟩
      rcases (le_lastBit q).lt_or_eq with h1 | h1
      · exact key _ _ habs (rounded_large hq h1)
      · omega
  · have h3 : lastBit q + 1 ≤ 971 := by
      refine key (2 ^ 52) _ ?_ (by norm_num)
      rw [habs]
      have : |((halfEven (q / 2 ^ lastBit q) : ℤ) : ℚ)| = 2 ^ 53 := by exact_mod_cast hb
      rw [this, zpow_add₀ (by norm_num)]
      norm_num
      ring
    have h4 := le_lastBit q
    rcases abs_eq (by norm_num) |>.mp hb with hm | hm
    · refine ⟨2 ^ 52, lastBit q + 1, by norm_num, by omega, h3, ?_⟩
      rw [rounded, hm, zpow_add₀ (by norm_num)]
      push_cast
      norm_num
      ring
    · refine ⟨-2 ^ 52, lastBit q + 1, by norm_num, by omega, h3, ?_⟩
      rw [rounded, hm, zpow_add₀ (by norm_num)]
      push_cast
      norm_num
      ring

theorem halfEven_neg (z : ℚ) : halfEven (-z) = -halfEven z := by
  by_cases hz : z = ⌊z⌋
  · rw [hz, ← Int.cast_neg, halfEven_int, halfEven_int]
  · have h1 := Int.floor_le z
    have h2 := Int.lt_floor_add_one z
    have h3 : (⌊z⌋ : ℚ) < z := lt_of_le_of_ne h1 (Ne.symm hz)
    have h4 : ⌊-z⌋ = -⌊z⌋ - 1 := by
      rw [Int.floor_eq_iff]
      push_cast
      constructor <;> linarith
    unfold halfEven
    rw [h4]
    push_cast
    by_cases c1 : z - ⌊z⌋ < 1 / 2
    · rw [if_pos c1, if_neg (by linarith), if_pos (by linarith)]; ring
    · by_cases c2 : 1 / 2 < z - ⌊z⌋
      · rw [if_neg c1, if_pos c2, if_pos (by linarith)]; ring
      · rw [if_neg c1, if_neg c2, if_neg (by linarith), if_neg (by linarith)]
        by_cases c3 : ⌊z⌋ % 2 = 0
        · rw [if_pos c3, if_neg (by omega)]; ring
        · rw [if_neg c3, if_pos (by omega)]; ring

theorem lastBit_neg (q : ℚ) : lastBit (-q) = lastBit q := by simp [lastBit]

theorem rounded_neg (q : ℚ) : rounded (-q) = -rounded q := by
  unfold rounded
  rw [lastBit_neg, neg_div, halfEven_neg]
  push_cast
  ring

/-- The greatest double. -/
theorem binary64_le {x : ℚ} (h : Binary64 x) : |x| ≤ 2 ^ (1024 : ℕ) - 2 ^ (971 : ℕ) := by
  obtain ⟨m, e, hm, h1, h2, rfl⟩ := h
  have hp : (0 : ℚ) < 2 ^ e := zpow_pos (by norm_num) _
  have h3 : (2 : ℚ) ^ e ≤ 2 ^ (971 : ℤ) := zpow_le_zpow_right₀ (by norm_num) h2
  have h4 : |m| ≤ 2 ^ 53 - 1 := by omega
  have h5 : |(m : ℚ)| ≤ 2 ^ 53 - 1 := by exact_mod_cast h4
  have e1 : (2 : ℚ) ^ (1024 : ℕ) - 2 ^ (971 : ℕ) = (2 ^ 53 - 1) * 2 ^ (971 : ℤ) := by
    rw [sub_mul, show (2 : ℚ) ^ (971 : ℤ) = 2 ^ (971 : ℕ) from zpow_natCast _ 971, ← pow_add]
    ring
  rw [abs_mul, abs_of_pos hp, e1]
  exact mul_le_mul h5 h3 hp.le (by norm_num)

theorem binary64_greatest : Binary64 (2 ^ (1024 : ℕ) - 2 ^ (971 : ℕ)) := by
  refine ⟨2 ^ 53 - 1, 971, by norm_num, by norm_num, by norm_num, ?_⟩
  have : (2 : ℚ) ^ (1024 : ℕ) = 2 ^ 53 * 2 ^ (971 : ℕ) := by rw [← pow_add]
  rw [show (2 : ℚ) ^ (971 : ℤ) = 2 ^ (971 : ℕ) from zpow_natCast _ 971, this]
  generalize (2 : ℚ) ^ (971 : ℕ) = E
  push_cast
  ring

theorem rounded_over {q : ℚ} (h0 : 0 ≤ q) : 2 ^ (1024 : ℕ) ≤ |rounded q| ↔ 2 ^ (1024 : ℕ) - 2 ^ (970 : ℕ) ≤ q := by
  have hB : (2 : ℚ) ^ (971 : ℕ) = 2 * 2 ^ (970 : ℕ) := by rw [pow_succ']
  have hpos : (0 : ℚ) < 2 ^ (970 : ℕ) := by positivity
  constructor
  · intro h
    have h1 := rounded_best (q := q) binary64_greatest
    have h2 := rounded_best (q := q) binary64_zero
    rw [hB] at h1
    generalize (2 : ℚ) ^ (1024 : ℕ) = M at h h1 ⊢
    generalize (2 : ℚ) ^ (970 : ℕ) = E at h1 hpos ⊢
    rcases le_total 0 (rounded q) with hr | hr
    · rw [abs_of_nonneg hr] at h
      have h3 := (abs_le.1 h1).2
      rcases le_total q (M - 2 * E) with hq | hq
      · rw [abs_of_nonneg (by linarith)] at h3
        linarith
      · rw [abs_of_nonpos (by linarith)] at h3
        linarith
    · rw [abs_of_nonpos hr] at h
      have h3 := (abs_le.1 h2).1
      rw [zero_sub, abs_neg, abs_of_nonneg h0] at h3
      have h4 : rounded q = 0 := by linarith
      have h5 : M ≤ 0 := by linarith
      linarith
  · intro h
    have hM : (2 : ℚ) ^ (1024 : ℕ) = 2 ^ 54 * 2 ^ (970 : ℕ) := by rw [← pow_add]
    have hq : q ≠ 0 := by
      rintro rfl
      rw [hM] at h
      generalize (2 : ℚ) ^ (970 : ℕ) = E at h hpos
      linarith
    have hlow : (2 : ℚ) ^ (1023 : ℤ) ≤ q := by
      rw [show (1023 : ℤ) = ((1023 : ℕ) : ℤ) by norm_num, zpow_natCast]
      have : (2 : ℚ) ^ (1023 : ℕ) = 2 ^ 53 * 2 ^ (970 : ℕ) := by rw [← pow_add]
      rw [this]
      rw [hM] at h
      generalize (2 : ℚ) ^ (970 : ℕ) = E at h hpos ⊢
      linarith
    have hlog : 971 ≤ lastBit q := by
      have := lastBit_upper q
      rw [abs_of_nonneg h0] at this
      have := (zpow_lt_zpow_iff_right₀ (by norm_num : (1 : ℚ) < 2)).1 (hlow.trans_lt this)
      omega
    rcases lt_or_eq_of_le hlog with hl | hl
    · have h1 := rounded_large hq (by omega)
      unfold rounded
      have hp : (0 : ℚ) < 2 ^ lastBit q := zpow_pos (by norm_num) _
      rw [abs_mul, abs_of_pos hp]
      have h2 : (2 : ℚ) ^ (972 : ℤ) ≤ 2 ^ lastBit q := zpow_le_zpow_right₀ (by norm_num) (by omega)
      have h3 : (2 : ℚ) ^ 52 ≤ |((halfEven (q / 2 ^ lastBit q) : ℤ) : ℚ)| := by exact_mod_cast h1
      have h4 : (2 : ℚ) ^ (1024 : ℕ) = 2 ^ 52 * 2 ^ (972 : ℤ) := by
        rw [show (2 : ℚ) ^ (972 : ℤ) = 2 ^ (972 : ℕ) from zpow_natCast _ 972, ← pow_add]
      rw [h4]
      exact mul_le_mul h3 h2 (zpow_pos (by norm_num) _).le (abs_nonneg _)
    · have hu : (2 : ℚ) ^ lastBit q = 2 * 2 ^ (970 : ℕ) := by
        rw [← hl, show (2 : ℚ) ^ (971 : ℤ) = 2 ^ (971 : ℕ) from zpow_natCast _ 971, hB]
      have h1 := lastBit_upper q
      rw [zpow_add₀ (by norm_num), hu, abs_of_nonneg h0] at h1
      have hu0 : (0 : ℚ) < 2 * 2 ^ (970 : ℕ) := by positivity
      have hh : halfEven (q / 2 ^ lastBit q) = 2 ^ 53 := by
        rw [hu]
        rw [hM] at h
        refine Printf.halfEven_half (by norm_num) ?_ ?_
        · rw [le_div_iff₀ hu0]
          push_cast
          generalize (2 : ℚ) ^ (970 : ℕ) = E at h hpos ⊢
          linarith
        · rw [div_lt_iff₀ hu0]
          push_cast
          have : (2 : ℚ) ^ (53 : ℤ) = 2 ^ 53 := by norm_num
          rw [this] at h1
          generalize (2 : ℚ) ^ (970 : ℕ) = E at h1 hpos ⊢
          norm_num at h1
          clear hB hM hlow hu hu0 this h hl hlog hq
          linarith
      unfold rounded
      rw [hh, hu, hM]
      push_cast
      rw [abs_of_pos (by positivity)]
      generalize (2 : ℚ) ^ (970 : ℕ) = E at hpos ⊢
      linarith

theorem rounded_nonneg {q : ℚ} (h : 0 ≤ q) : 0 ≤ rounded q := by
  have h2 := rounded_best (q := q) binary64_zero
  rw [zero_sub, abs_neg, abs_of_nonneg h] at h2
  have := (abs_le.1 h2).1
  linarith

theorem rounded_over_abs (q : ℚ) : 2 ^ (1024 : ℕ) ≤ |rounded q| ↔ 2 ^ (1024 : ℕ) - 2 ^ (970 : ℕ) ≤ |q| := by
  rcases le_total 0 q with h | h
  · rw [rounded_over h, abs_of_nonneg h]
  · have := rounded_over (q := -q) (by linarith)
    rw [rounded_neg, abs_neg] at this
    rw [this, abs_of_nonpos h]

/-- Integers near zero are doubles. -/
theorem binary64_int {n : ℤ} (h : |n| ≤ 2 ^ 53) : Binary64 n := by
  rcases h.lt_or_eq with h | h
  · exact ⟨n, 0, h, by norm_num, by norm_num, by simp⟩
  · rcases abs_eq (by norm_num) |>.mp h with h | h
    · exact ⟨2 ^ 52, 1, by norm_num, by norm_num, by norm_num, by rw [h]; norm_num⟩
    · exact ⟨-2 ^ 52, 1, by norm_num, by norm_num, by norm_num, by rw [h]; norm_num⟩

/-- Functions that round a double to an integer yield a double. -/
theorem binary64_toInteger {f : ℚ → ℤ} (hf : ∀ n : ℤ, f n = n) (hb : ∀ q, |(f q : ℚ) - q| ≤ 1) {q : ℚ} (h : Binary64 q) :
    Binary64 (f q) := by
  obtain ⟨m, e, hm, h1, h2, rfl⟩ := h
  rcases le_or_gt 0 e with he | he
  · obtain ⟨n, hn⟩ := multiple he m
    rw [zpow_zero, mul_one] at hn
    have : f ((m : ℚ) * 2 ^ e) = n := by rw [hn, hf]
    rw [this, ← hn]
    exact ⟨m, e, hm, h1, h2, rfl⟩
  · refine binary64_int ?_
    have h3 := abs_int_lt_pow hm e
    have h4 : (2 : ℚ) ^ (e + 53) ≤ 2 ^ (52 : ℤ) := zpow_le_zpow_right₀ (by norm_num) (by omega)
    have h5 := hb ((m : ℚ) * 2 ^ e)
    have h6 := abs_sub_abs_le_abs_sub ((f ((m : ℚ) * 2 ^ e) : ℤ) : ℚ) ((m : ℚ) * 2 ^ e)
    have h7 : |((f ((m : ℚ) * 2 ^ e) : ℤ) : ℚ)| ≤ 2 ^ 53 := by
      norm_num at h4 ⊢
      linarith
    exact_mod_cast h7

end Verif.Dbl
