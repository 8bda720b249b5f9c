import Verif.Lemmas.PrintfText
import Verif.Lemmas.Double

/-!
# Written numbers are read back
-/

namespace Verif.Printf
open Dbl

theorem foldl_number (s : Str) (n : ℕ) : s.foldl (fun n c => 10 * n + (c.toNat - 48)) n = n * 10 ^ s.length + number s := by
  induction s generalizing n with
  | nil => simp [number]
  | cons c s ih =>
    rw [number, List.foldl_cons, List.foldl_cons, ih, ih (10 * 0 + (c.toNat - 48)), List.length_cons, pow_succ]
    ring

theorem number_append (a b : Str) : number (a ++ b) = number a * 10 ^ b.length + number b := by
  rw [number, List.foldl_append, foldl_number]
  rfl

theorem number_padded (k n : ℕ) : number (padded k n) = n % 10 ^ k := by
  induction k generalizing n with
  | zero => simp [padded, number, Nat.mod_one]
  | succ k ih =>
    rw [padded, number_append, ih]
    have h1 : number [digit n] = n % 10 := by
      rw [number, List.foldl_cons, List.foldl_nil, digit_toNat]
      omega
    rw [h1, List.length_singleton, pow_one, pow_succ, mul_comm (10 ^ k) 10, Nat.mod_mul]
    ring

theorem number_zeros (k : ℕ) : number (List.replicate k '0') = 0 := by
  induction k with
  | zero => rfl
  | succ k ih =>
    rw [List.replicate_succ', number_append, ih]
    decide

theorem trim_zeros (s : Str) : ∃ k, s = trim s ++ List.replicate k '0' := by
  have h := List.takeWhile_append_dropWhile (p := fun c : Char => c == '0') (l := s.reverse)
  refine ⟨(s.reverse.takeWhile (fun c : Char => c == '0')).length, ?_⟩
  have h2 : s.reverse.takeWhile (fun c : Char => c == '0') =
      List.replicate (s.reverse.takeWhile (fun c : Char => c == '0')).length '0' := by
    refine List.eq_replicate_iff.2 ⟨rfl, fun c hc => ?_⟩
    have := List.all_eq_true.1 List.all_takeWhile c hc
    simpa using this
  have h3 := congrArg List.reverse h
  rw [List.reverse_append, List.reverse_reverse] at h3
  rw [trim]
  conv_lhs => rw [← h3]
  congr 1
  conv_lhs => rw [h2]
  exact List.reverse_replicate ..

/-- Zeros at the end of a fraction do not matter. -/
theorem number_trim (a s : Str) : (number (a ++ trim s) : ℚ) / 10 ^ (trim s).length = number (a ++ s) / 10 ^ s.length := by
  obtain ⟨k, hk⟩ := trim_zeros s
  conv_rhs => rw [hk]
  rw [← List.append_assoc, number_append (a ++ trim s), number_zeros, List.length_append, List.length_replicate, pow_add]
  push_cast
  rw [add_zero, mul_div_mul_right]
  positivity

theorem not_word {c : Char} (h : isDecimal c = true) (s : Str) :
    ([ "inf".toList, "infinity".toList ].contains ((c :: s).map lower)) = false ∧ (c :: s).map lower ≠ "nan".toList := by
  have hc : lower c ≠ 'i' ∧ lower c ≠ 'n' := by
    rw [isDecimal_iff] at h
    have : lower c = c := by
      unfold lower
      rw [if_neg]
      rintro ⟨h1, -⟩
      have : 65 ≤ c.toNat := h1
      omega
    rw [this]
    constructor
    · rintro rfl
      exact absurd h.2 (by decide)
    · rintro rfl
      exact absurd h.2 (by decide)
  constructor
  · simp [hc]
  · simp [hc]

theorem takeWhile_all {p : Char → Bool} {a : Str} (h : ∀ c ∈ a, p c = true) (b : Str) :
    (a ++ b).takeWhile p = a ++ b.takeWhile p ∧ (a ++ b).dropWhile p = b.dropWhile p := by
  induction a with
  | nil => simp
  | cons c a ih =>
    have hc := h c (by simp)
    obtain ⟨h1, h2⟩ := ih fun c hc => h c (by simp [hc])
    simp [hc, h1, h2]

/-- What is read of digits, a point and digits. -/
theorem strtod_point {a b : Str} (ha : a ≠ []) (h1 : ∀ c ∈ a, isDecimal c = true) (h2 : ∀ c ∈ b, isDecimal c = true) :
    strtod (a ++ '.' :: b) = some (Dbl.round ((number (a ++ b) : ℚ) / 10 ^ b.length)) := by
  obtain ⟨c, cs, rfl⟩ := List.exists_cons_of_ne_nil ha
  obtain ⟨e1, e2⟩ := takeWhile_all h1 ('.' :: b)
  have e3 : isDecimal '.' = false := by decide
  rw [List.takeWhile_cons_of_neg (by simp [e3]), List.append_nil] at e1
  rw [List.dropWhile_cons_of_neg (by simp [e3])] at e2
  have e4 : b.all isDecimal = true := List.all_eq_true.2 h2
  have e5 := not_word (h1 c (by simp)) (cs ++ '.' :: b)
  rw [← List.cons_append] at e5
  simp only [strtod, e5.1, e5.2, if_false, e1, e2, e4, Bool.false_eq_true]
  simp

/-- The point is left out if nothing follows. -/
theorem strtod_pointed {a b : Str} (ha : a ≠ []) (h1 : ∀ c ∈ a, isDecimal c = true) (h2 : ∀ c ∈ b, isDecimal c = true) :
    strtod (pointed a b) = some (Dbl.round ((number (a ++ b) : ℚ) / 10 ^ b.length)) := by
  obtain ⟨c, cs, rfl⟩ := List.exists_cons_of_ne_nil ha
  have hw := fun s => not_word (h1 c (by simp)) s
  rw [← number_trim]
  unfold pointed
  cases ht : trim b with
  | nil =>
    obtain ⟨e1, e2⟩ := takeWhile_all h1 []
    simp only [List.append_nil, List.takeWhile_nil, List.dropWhile_nil] at e1 e2
    simp only [strtod, (hw cs).1, (hw cs).2, if_false, e1, e2, Bool.false_eq_true]
    simp
  | cons d ds =>
    have hd : ∀ c ∈ d :: ds, isDecimal c = true := fun c hc => h2 c ((trim_sublist b).subset (ht ▸ hc))
    exact strtod_point ha h1 hd

/-! ## Ten digits -/

theorem halfEven_near {y : ℚ} {n : ℤ} (h : |y - n| < 1 / 2) : halfEven y = n := by
  have h1 := abs_lt.1 h
  have h2 := abs_le.1 (halfEven_error y)
  have h3 : (halfEven y : ℚ) < n + 1 := by linarith
  have h4 : (n : ℚ) - 1 < halfEven y := by linarith
  have h3' : halfEven y < n + 1 := by exact_mod_cast h3
  have h4' : n - 1 < halfEven y := by exact_mod_cast h4
  omega

/-- Halfway below an even number. -/
theorem halfEven_half {y : ℚ} {n : ℤ} (hn : n % 2 = 0) (h1 : (n : ℚ) - 1 / 2 ≤ y) (h2 : y < n + 1 / 2) : halfEven y = n := by
  rcases h1.lt_or_eq with h | h
  · exact halfEven_near (abs_lt.2 ⟨by linarith, by linarith⟩)
  · have hf : ⌊y⌋ = n - 1 := by
      rw [Int.floor_eq_iff]
      push_cast
      constructor <;> linarith
    unfold halfEven
    rw [hf]
    push_cast
    rw [if_neg (by linarith), if_neg (by linarith), if_neg (by omega)]
    omega

theorem pow10 (x : ℤ) : (0 : ℚ) < 10 ^ x := zpow_pos (by norm_num) _

theorem pow10_shift (x : ℤ) (k : ℕ) : (10 : ℚ) ^ (x + k) = 10 ^ k * 10 ^ x := by
  rw [zpow_add₀ (by norm_num), zpow_natCast, mul_comm]

theorem log_bounds {q : ℚ} (hq : 0 < q) : (10 : ℚ) ^ Int.log 10 q ≤ q ∧ q < 10 ^ (Int.log 10 q + 1) := by
  have h1 := Int.zpow_log_le_self (b := 10) (by norm_num) hq
  have h2 := Int.lt_zpow_succ_log_self (b := 10) (by norm_num) q
  push_cast at h1 h2
  exact ⟨h1, h2⟩

theorem log_eq {q : ℚ} {x : ℤ} (h1 : (10 : ℚ) ^ x ≤ q) (h2 : q < 10 ^ (x + 1)) : Int.log 10 q = x := by
  have hq : 0 < q := lt_of_lt_of_le (pow10 x) h1
  have a1 := (Int.zpow_le_iff_le_log (b := 10) (by norm_num) hq (x := x)).1 (by push_cast; exact h1)
  have a2 := (Int.lt_zpow_iff_log_lt (b := 10) (by norm_num) hq (x := x + 1)).1 (by push_cast; exact h2)
  omega

/-- The ten digits of a number are the nearest ones. -/
theorem sig10_spec {q : ℚ} (hq : 0 < q) : 10 ^ 9 ≤ (sig10 q).1 ∧ (sig10 q).1 < 10 ^ 10 ∧
    |((sig10 q).1 : ℚ) * 10 ^ ((sig10 q).2 - 9) - q| ≤ q / (2 * 10 ^ 9) := by
  obtain ⟨h1, h2⟩ := log_bounds hq
  unfold sig10
  generalize Int.log 10 q = e at h1 h2
  dsimp only
  have hu := pow10 (e - 9)
  have e1 : (10 : ℚ) ^ e = 10 ^ 9 * 10 ^ (e - 9) := by rw [← pow10_shift]; congr 1; omega
  have e2 : (10 : ℚ) ^ (e + 1) = 10 ^ 10 * 10 ^ (e - 9) := by rw [← pow10_shift]; congr 1; omega
  rw [e1] at h1
  rw [e2] at h2
  have e3 : (10 : ℚ) ^ (e + 1 - 9) = 10 * 10 ^ (e - 9) := by
    have := pow10_shift (e - 9) 1
    rw [pow_one] at this
    rw [← this]; congr 1; push_cast; omega
  generalize hue : (10 : ℚ) ^ (e - 9) = u at hu h1 h2 e3 ⊢
  have h3 : (10 ^ 9 : ℚ) ≤ q / u := by rw [le_div_iff₀ hu]; exact h1
  have h4 : q / u < 10 ^ 10 := by rw [div_lt_iff₀ hu]; exact h2
  have h5 := abs_le.1 (halfEven_error (q / u))
  have h6 : (10 ^ 9 : ℤ) ≤ halfEven (q / u) := by
    have : ((10 ^ 9 - 1 : ℤ) : ℚ) < halfEven (q / u) := by push_cast; linarith
    have := Int.cast_lt.1 this
    omega
  have h7 : halfEven (q / u) ≤ 10 ^ 10 := by
    have : (halfEven (q / u) : ℚ) < ((10 ^ 10 + 1 : ℤ) : ℚ) := by push_cast; linarith
    have := Int.cast_lt.1 this
    omega
  have h8 : |(halfEven (q / u) : ℚ) * u - q| ≤ q / (2 * 10 ^ 9) := by
    have : (halfEven (q / u) : ℚ) * u - q = (halfEven (q / u) - q / u) * u := by field_simp
    rw [this, abs_mul, abs_of_pos hu]
    have h9 := mul_le_mul_of_nonneg_right (halfEven_error (q / u)) hu.le
    refine h9.trans ?_
    rw [le_div_iff₀ (by norm_num)]
    linarith
  split
  · rename_i hm
    refine ⟨le_refl _, by norm_num, ?_⟩
    rw [hm] at h8
    dsimp only
    rw [e3]
    push_cast at h8 ⊢
    have : (1000000000 : ℚ) * (10 * u) = 10000000000 * u := by ring
    rw [this]
    exact h8
  · rename_i hm
    refine ⟨by omega, by omega, ?_⟩
    have : (((halfEven (q / u)).toNat : ℕ) : ℚ) = halfEven (q / u) := by
      have : ((halfEven (q / u)).toNat : ℤ) = halfEven (q / u) := Int.toNat_of_nonneg (by omega)
      exact_mod_cast congrArg (Int.cast : ℤ → ℚ) this
    dsimp only
    rw [this, hue]
    exact h8

/-- Numbers very close to one with ten digits have these. -/
theorem sig10_near {q : ℚ} {m : ℕ} {x : ℤ} (h1 : 10 ^ 9 ≤ m) (h2 : m < 10 ^ 10)
    (h : |q - m * 10 ^ (x - 9)| ≤ 10 ^ (x - 10) / 4) : sig10 q = (m, x) := by
  have hu := pow10 (x - 10)
  have e9 : (10 : ℚ) ^ (x - 9) = 10 * 10 ^ (x - 10) := by
    have := pow10_shift (x - 10) 1
    rw [pow_one] at this
    rw [← this]; congr 1; push_cast; omega
  have e0 : (10 : ℚ) ^ x = 10 ^ 10 * 10 ^ (x - 10) := by rw [← pow10_shift]; congr 1; omega
  have e1 : (10 : ℚ) ^ (x + 1) = 10 ^ 11 * 10 ^ (x - 10) := by rw [← pow10_shift]; congr 1; omega
  have em : (10 : ℚ) ^ (x - 1) = 10 ^ 9 * 10 ^ (x - 10) := by rw [← pow10_shift]; congr 1; omega
  rw [e9] at h
  have h1' : (10 ^ 9 : ℚ) ≤ m := by exact_mod_cast h1
  have h2' : (m : ℚ) + 1 ≤ 10 ^ 10 := by exact_mod_cast (show m + 1 ≤ 10 ^ 10 from h2)
  have hab := abs_le.1 h
  rcases le_or_gt ((10 : ℚ) ^ x) q with hx | hx
  · have hlog : Int.log 10 q = x := by
      refine log_eq hx ?_
      rw [e1]
      nlinarith
    unfold sig10
    rw [hlog]
    dsimp only
    rw [e9]
    generalize (10 : ℚ) ^ (x - 10) = u at *
    have hm : halfEven (q / (10 * u)) = (m : ℤ) := by
      refine halfEven_near ?_
      have : q / (10 * u) - ((m : ℤ) : ℚ) = (q - m * (10 * u)) / (10 * u) := by
        push_cast; field_simp
      rw [this, abs_div, abs_of_pos (by positivity : (0 : ℚ) < 10 * u), div_lt_iff₀ (by positivity)]
      linarith
    rw [hm, if_neg (by omega)]
    simp
  · have hm9 : m = 10 ^ 9 := by
      by_contra hne
      have : (10 ^ 9 + 1 : ℚ) ≤ m := by
        have : 10 ^ 9 + 1 ≤ m := by omega
        exact_mod_cast this
      rw [e0] at hx
      nlinarith
    have hlog : Int.log 10 q = x - 1 := by
      refine log_eq ?_ (by rw [sub_add_cancel]; exact hx)
      rw [em]
      nlinarith
    unfold sig10
    rw [hlog]
    dsimp only
    rw [show x - 1 - 9 = x - 10 by omega]
    rw [hm9] at hab ⊢
    rw [e0] at hx
    generalize (10 : ℚ) ^ (x - 10) = u at *
    have hm : halfEven (q / u) = 10 ^ 10 := by
      refine halfEven_near ?_
      have : q / u - ((10 ^ 10 : ℤ) : ℚ) = (q - 10 ^ 10 * u) / u := by
        push_cast; field_simp; norm_num
      rw [this, abs_div, abs_of_pos hu, div_lt_iff₀ hu, abs_lt]
      push_cast at hab
      constructor <;> linarith
    rw [hm, if_pos rfl]
    simp

/-- Numbers with ten digits. -/
theorem sig10_exact {n : ℕ} {z : ℤ} (h0 : n ≠ 0) (h : n < 10 ^ 10) :
    ((sig10 (n * 10 ^ z)).1 : ℚ) * 10 ^ ((sig10 (n * 10 ^ z)).2 - 9) = n * 10 ^ z := by
  have hn : (1 : ℚ) ≤ n := by exact_mod_cast Nat.one_le_iff_ne_zero.2 h0
  have hq : (0 : ℚ) < n * 10 ^ z := by have := pow10 z; positivity
  obtain ⟨h1, h2⟩ := log_bounds hq
  have hz : Int.log 10 ((n : ℚ) * 10 ^ z) - 9 ≤ z := by
    have hlt : (n : ℚ) * 10 ^ z < 10 ^ (z + (10 : ℕ)) := by
      rw [pow10_shift]
      refine mul_lt_mul_of_pos_right ?_ (pow10 z)
      exact_mod_cast h
    have := (Int.lt_zpow_iff_log_lt (b := 10) (by norm_num) hq (x := z + (10 : ℕ))).1 (by push_cast; push_cast at hlt; exact hlt)
    push_cast at this
    omega
  obtain ⟨k, hk⟩ := Int.eq_ofNat_of_zero_le (show 0 ≤ z - (Int.log 10 ((n : ℚ) * 10 ^ z) - 9) by omega)
  have hle : (10 ^ 9 : ℕ) ≤ n * 10 ^ k ∧ n * 10 ^ k < 10 ^ 10 := by
    generalize Int.log 10 ((n : ℚ) * 10 ^ z) = e at *
    have ez : (10 : ℚ) ^ z = 10 ^ k * 10 ^ (e - 9) := by rw [← pow10_shift]; congr 1; omega
    have e1 : (10 : ℚ) ^ e = 10 ^ 9 * 10 ^ (e - 9) := by rw [← pow10_shift]; congr 1; omega
    have e2 : (10 : ℚ) ^ (e + 1) = 10 ^ 10 * 10 ^ (e - 9) := by rw [← pow10_shift]; congr 1; omega
    rw [ez, e1, ← mul_assoc] at h1
    rw [ez, e2, ← mul_assoc] at h2
    have a1 := le_of_mul_le_mul_right h1 (pow10 (e - 9))
    have a2 := lt_of_mul_lt_mul_right h2 (pow10 (e - 9)).le
    constructor
    · exact_mod_cast a1
    · exact_mod_cast a2
  generalize Int.log 10 ((n : ℚ) * 10 ^ z) = e at *
  have ez : (10 : ℚ) ^ z = 10 ^ k * 10 ^ (e - 9) := by rw [← pow10_shift]; congr 1; omega
  have key : sig10 (n * 10 ^ z) = (n * 10 ^ k, e) := by
    refine sig10_near hle.1 hle.2 ?_
    rw [ez]
    push_cast
    rw [show (n : ℚ) * (10 ^ k * 10 ^ (e - 9)) - n * 10 ^ k * 10 ^ (e - 9) = 0 by ring, abs_zero]
    have := pow10 (e - 10)
    positivity
  rw [key, ez]
  push_cast
  ring

/-! ## The style -/

theorem sig10_range {q : ℚ} (hq : 0 < q) : (-4 ≤ (sig10 q).2 ∧ (sig10 q).2 < 10) ↔
    (1 / 10 ^ 4 - 5 / 10 ^ 15 ≤ q ∧ q < 10 ^ 10 - 1 / 2) := by
  obtain ⟨h1, h2⟩ := log_bounds hq
  have up : ∀ {a b : ℤ}, a ≤ b → (10 : ℚ) ^ a ≤ 10 ^ b := fun h => zpow_le_zpow_right₀ (by norm_num) h
  have hx : (sig10 q).2 = if halfEven (q / 10 ^ (Int.log 10 q - 9)) = 10 ^ 10 then Int.log 10 q + 1 else Int.log 10 q := by
    unfold sig10
    dsimp only
    split <;> rfl
  rw [hx]
  generalize he : Int.log 10 q = e at *
  refine and_congr ?_ ?_
  · rcases lt_trichotomy e (-5) with hlt | rfl | hgt
    · have hq5 : q < 10 ^ (-5 : ℤ) := lt_of_lt_of_le h2 (up (by omega))
      rw [show (10 : ℚ) ^ (-5 : ℤ) = 1 / 10 ^ 5 by norm_num [zpow_neg]] at hq5
      constructor
      · intro h
        split at h <;> omega
      · intro h
        exfalso
        norm_num at hq5 h
        linarith
    · rw [show (10 : ℚ) ^ (-5 - 9 : ℤ) = 1 / 10 ^ 14 by norm_num [zpow_neg]]
      have hy : q / (1 / 10 ^ 14) = q * 10 ^ 14 := by field_simp
      rw [hy]
      rw [show (-5 + 1 : ℤ) = -4 by norm_num, show (10 : ℚ) ^ (-4 : ℤ) = 1 / 10 ^ 4 by norm_num [zpow_neg]] at h2
      constructor
      · intro h
        split at h
        · rename_i hm
          have := abs_le.1 (halfEven_error (q * 10 ^ 14))
          rw [hm] at this
          push_cast at this
          norm_num at this ⊢
          linarith
        · omega
      · intro h
        rw [if_pos]
        · norm_num
        · refine halfEven_half (by norm_num) ?_ ?_
          · push_cast
            norm_num at h ⊢
            linarith
          · push_cast
            norm_num at h2 ⊢
            linarith
    · have hq4 : (10 : ℚ) ^ (-4 : ℤ) ≤ q := le_trans (up (by omega)) h1
      rw [show (10 : ℚ) ^ (-4 : ℤ) = 1 / 10 ^ 4 by norm_num [zpow_neg]] at hq4
      constructor
      · intro _
        norm_num at hq4 ⊢
        linarith
      · intro _
        split <;> omega
  · rcases lt_trichotomy e 9 with hlt | rfl | hgt
    · have hq9 : q < 10 ^ (9 : ℤ) := lt_of_lt_of_le h2 (up (by omega))
      rw [show (10 : ℚ) ^ (9 : ℤ) = 10 ^ 9 by norm_num] at hq9
      constructor
      · intro _
        norm_num at hq9 ⊢
        linarith
      · intro _
        split <;> omega
    · rw [show (10 : ℚ) ^ (9 - 9 : ℤ) = 1 by norm_num, div_one]
      rw [show (10 : ℚ) ^ (9 + 1 : ℤ) = 10 ^ 10 by norm_num] at h2
      constructor
      · intro h
        by_contra hge
        rw [not_lt] at hge
        rw [if_pos] at h
        · omega
        · refine halfEven_half (by norm_num) ?_ ?_
          · push_cast; exact hge
          · push_cast; linarith
      · intro h
        rw [if_neg]
        · norm_num
        · intro hm
          have := abs_le.1 (halfEven_error q)
          rw [hm] at this
          push_cast at this
          linarith
    · have hq10 : (10 : ℚ) ^ (10 : ℤ) ≤ q := le_trans (up (by omega)) h1
      rw [show (10 : ℚ) ^ (10 : ℤ) = 10 ^ 10 by norm_num] at hq10
      constructor
      · intro h
        split at h <;> omega
      · intro h
        exfalso
        linarith

/-- The parts in front of and behind the point. -/
theorem general_parts {q : ℚ} (hx : -4 ≤ (sig10 q).2 ∧ (sig10 q).2 < 10) (hm : (sig10 q).1 < 10 ^ 10) :
    ∃ a b, general q = pointed a b ∧ a ≠ [] ∧ (∀ c ∈ a, isDecimal c = true) ∧ (∀ c ∈ b, isDecimal c = true) ∧
      (number (a ++ b) : ℚ) / 10 ^ b.length = (sig10 q).1 * 10 ^ ((sig10 q).2 - 9) := by
  unfold general
  revert hx hm
  obtain ⟨m, x⟩ := sig10 q
  dsimp only
  intro hx hm
  have hl := padded_length 10 m
  have hd := padded_decimal 10 m
  have hval : ∀ k : ℕ, (k : ℤ) = 9 - x → (m : ℚ) / 10 ^ k = m * 10 ^ (x - 9) := by
    intro k hk
    rw [show x - 9 = -(k : ℤ) by omega, zpow_neg, zpow_natCast]
    rfl
  rw [if_pos hx]
  split
  · rename_i h0
    refine ⟨_, _, rfl, ?_, fun c hc => hd c (List.mem_of_mem_take hc), fun c hc => hd c (List.mem_of_mem_drop hc), ?_⟩
    · intro h
      have := congrArg List.length h
      rw [List.length_take, hl] at this
      simp at this
    · rw [List.take_append_drop, number_padded, Nat.mod_eq_of_lt hm, List.length_drop, hl]
      exact hval _ (by omega)
  · rename_i h0
    refine ⟨_, _, rfl, by decide, by decide, ?_, ?_⟩
    · intro c hc
      rcases List.mem_append.1 hc with hc | hc
      · rw [(List.mem_replicate.1 hc).2]; decide
      · exact hd c hc
    · rw [number_append, number_append, number_zeros, number_padded, Nat.mod_eq_of_lt hm, List.length_append, hl,
        List.length_replicate]
      rw [show number "0".toList = 0 by decide]
      simp only [Nat.zero_mul, Nat.zero_add]
      exact hval _ (by omega)

/-! ## Integers -/

theorem digit_eq {n : ℕ} (h : n < 10) : digit n = Nat.digitChar n := by
  interval_cases n <;> rfl

theorem number_toDigits (n : ℕ) : number (Nat.toDigits 10 n) = n := by
  induction n using Nat.strong_induction_on with
  | _ n ih =>
    rw [Nat.toDigits_eq_if (by norm_num)]
    split
    · rename_i h
      interval_cases n <;> rfl
    · rename_i h
      rw [number_append, ih _ (by omega)]
      have : number [(n % 10).digitChar] = n % 10 := by
        have : n % 10 < 10 := Nat.mod_lt _ (by norm_num)
        generalize n % 10 = k at this
        interval_cases k <;> rfl
      rw [this, List.length_singleton, pow_one]
      omega

/-- Digits without leading zeros. -/
theorem padded_toDigits (k n : ℕ) (h : n < 10 ^ (k + 1)) (h0 : k = 0 ∨ 10 ^ k ≤ n) : padded (k + 1) n = Nat.toDigits 10 n := by
  induction k generalizing n with
  | zero =>
    rw [Nat.toDigits_of_lt_base (by simpa using h), padded, padded, List.nil_append, digit_eq (by simpa using h)]
  | succ k ih =>
    have hk : 10 ^ (k + 1) ≤ n := by simpa using h0
    have h10 : 10 ≤ n := le_trans (by rw [pow_succ]; have := Nat.one_le_pow k 10 (by norm_num); omega) hk
    rw [Nat.toDigits_of_base_le (by norm_num) h10, padded, ih]
    · rw [digit, ← digit_eq (Nat.mod_lt _ (by norm_num)), digit, Nat.mod_mod]
    · rw [pow_succ] at h
      omega
    · right
      rw [pow_succ] at hk
      omega

theorem padded_shift (j k n : ℕ) : padded (k + j) (n * 10 ^ j) = padded k n ++ List.replicate j '0' := by
  induction j with
  | zero => simp
  | succ j ih =>
    rw [← Nat.add_assoc, padded, pow_succ, ← Nat.mul_assoc, Nat.mul_div_cancel _ (by norm_num), ih, List.append_assoc,
      List.replicate_succ']
    congr 2
    rw [digit, Nat.mul_mod_left]

theorem trim_replicate (j : ℕ) : trim (List.replicate j '0') = [] := by
  unfold trim
  rw [List.reverse_replicate]
  induction j with
  | zero => rfl
  | succ j ih => simpa [List.replicate_succ] using ih

theorem general_nat {n : ℕ} (h0 : n ≠ 0) (h : n < 10 ^ 10) : general n = Nat.toDigits 10 n := by
  have hb := Nat.lt_pow_succ_log_self (b := 10) (by norm_num) n
  have ha := Nat.pow_log_le_self 10 h0
  have hl : Nat.log 10 n < 10 := Nat.log_lt_of_lt_pow h0 h
  generalize Nat.log 10 n = e at ha hb hl
  obtain ⟨j, hj⟩ := Nat.exists_eq_add_of_lt hl
  have e10 : (10 : ℕ) ^ 10 = 10 ^ (e + 1) * 10 ^ j := by rw [← pow_add]; congr 1; omega
  have e9 : (10 : ℕ) ^ 9 = 10 ^ e * 10 ^ j := by rw [← pow_add]; congr 1; omega
  have key : sig10 n = (n * 10 ^ j, (e : ℤ)) := by
    refine sig10_near ?_ ?_ ?_
    · rw [e9]; exact Nat.mul_le_mul_right _ ha
    · rw [e10]; exact Nat.mul_lt_mul_of_pos_right hb (by positivity)
    · have : ((n * 10 ^ j : ℕ) : ℚ) * 10 ^ ((e : ℤ) - 9) = n := by
        rw [show (e : ℤ) - 9 = -(j : ℤ) by omega, zpow_neg, zpow_natCast]
        push_cast
        field_simp
      rw [this, sub_self, abs_zero]
      have := pow10 ((e : ℤ) - 10)
      positivity
  unfold general
  rw [key]
  dsimp only
  have hp : padded 10 (n * 10 ^ j) = Nat.toDigits 10 n ++ List.replicate j '0' := by
    rw [← padded_toDigits e n hb (.inr ha), ← padded_shift]
    congr 1
    omega
  have hlen : (Nat.toDigits 10 n).length = e + 1 := by
    rw [← padded_toDigits e n hb (.inr ha), padded_length]
  rw [if_pos (by omega), if_pos (by omega), hp, Int.toNat_natCast, ← hlen, List.take_left, List.drop_left]
  unfold pointed
  rw [trim_replicate]

end Verif.Printf
