import Verif.Props.Doubles

/-!
# C94: rounding, extrema, sums and means of doubles
-/

namespace Verif.DoublesProps
open Verif Dbl DoubleSpec EvaluationProps

variable (L : Lib) (o : Op) (hist : List Dbl) (rnd fuel : ℕ)

/-- **C94**: `floor(x)` is the greatest integer that is not above `x`. -/
theorem C94_floor (ho : Builtin "floor" .function o) (q : ℚ) :
    ∃ n : ℤ, evalOp (arith Dbl.round L) hist rnd fuel o [fin q] = .ok (fin n) ∧ n ≤ q ∧ q < n + 1 := by
  refine ⟨⌊q⌋, ?_, Int.floor_le q, Int.lt_floor_add_one q⟩
  unfold evalOp
  rw [ho.id (k := 38) (by decide +kernel)]
  rfl

/-- **C94**: `ceil(x)` is the least integer that is not below `x`. -/
theorem C94_ceil (ho : Builtin "ceil" .function o) (q : ℚ) :
    ∃ n : ℤ, evalOp (arith Dbl.round L) hist rnd fuel o [fin q] = .ok (fin n) ∧ n - 1 < q ∧ q ≤ n := by
  refine ⟨⌈q⌉, ?_, by linarith [Int.ceil_lt_add_one q], Int.le_ceil q⟩
  unfold evalOp
  rw [ho.id (k := 37) (by decide +kernel)]
  rfl

/-- **C94**: `trunc(x)` is the integer next to `x` in the direction of 0. -/
theorem C94_trunc (ho : Builtin "trunc" .function o) (q : ℚ) :
    ∃ n : ℤ, evalOp (arith Dbl.round L) hist rnd fuel o [fin q] = .ok (fin n) ∧ |(n : ℚ)| ≤ |q| ∧ |q| < |(n : ℚ)| + 1 ∧
      0 ≤ (n : ℚ) * q := by
  refine ⟨truncQ q, ?_, ?_⟩
  · unfold evalOp
    rw [ho.id (k := 40) (by decide +kernel)]
    rfl
  · unfold truncQ
    split
    · next h =>
      have h1 := Int.floor_le q
      have h2 := Int.lt_floor_add_one q
      have h3 : (0 : ℚ) ≤ ⌊q⌋ := by exact_mod_cast Int.floor_nonneg.2 h
      rw [abs_of_nonneg h3, abs_of_nonneg h]
      exact ⟨h1, h2, mul_nonneg h3 h⟩
    · next h =>
      have h0 := not_le.1 h
      have h1 := Int.le_ceil q
      have h2 := Int.ceil_lt_add_one q
      have h3 : (⌈q⌉ : ℚ) ≤ 0 := by exact_mod_cast Int.ceil_le.2 (by simpa using h0.le)
      rw [abs_of_nonpos h3, abs_of_neg h0]
      exact ⟨by linarith, by linarith, mul_nonneg_of_nonpos_of_nonpos h3 h0.le⟩

/-- **C94**: `round(x)` is an integer nearest to `x`, and of two the one farther from 0. -/
theorem C94_round (ho : Builtin "round" .function o) (q : ℚ) :
    ∃ n : ℤ, evalOp (arith Dbl.round L) hist rnd fuel o [fin q] = .ok (fin n) ∧ ∀ k : ℤ, k ≠ n →
      |(n : ℚ) - q| < |(k : ℚ) - q| ∨ |(n : ℚ) - q| = |(k : ℚ) - q| ∧ |(k : ℚ)| < |(n : ℚ)| := by
  refine ⟨roundQ q, ?_, ?_⟩
  · unfold evalOp
    rw [ho.id (k := 39) (by decide +kernel)]
    rfl
  · intro k hk
    unfold roundQ at hk ⊢
    split
    · next h =>
      rw [if_pos h] at hk
      have h1 := Int.floor_le (q + 1 / 2)
      have h2 := Int.lt_floor_add_one (q + 1 / 2)
      generalize ⌊q + 1 / 2⌋ = n at *
      rcases lt_or_gt_of_ne hk with h3 | h3
      · have h4 : (k : ℚ) ≤ n - 1 := by exact_mod_cast (show k ≤ n - 1 by omega)
        rw [abs_of_nonpos (show (k : ℚ) - q ≤ 0 by linarith)]
        rcases lt_or_ge ((n : ℚ) - q) (q - k) with h5 | h5
        · left; rw [abs_lt]; constructor <;> linarith
        · right
          have h6 : (k : ℚ) = n - 1 := by linarith
          have h7 : q = n - 1 / 2 := by linarith
          refine ⟨by rw [abs_of_nonneg (by linarith)]; linarith, ?_⟩
          have h8 : 0 ≤ k := by
            have : (0 : ℚ) < k + 1 := by linarith
            have : 0 < k + 1 := by exact_mod_cast this
            omega
          have h9 : (0 : ℚ) ≤ k := by exact_mod_cast h8
          rw [abs_of_nonneg h9, abs_of_nonneg (by linarith)]
          linarith
      · have h4 : (n : ℚ) + 1 ≤ k := by exact_mod_cast (show n + 1 ≤ k by omega)
        left
        rw [abs_of_pos (show 0 < (k : ℚ) - q by linarith), abs_lt]
        constructor <;> linarith
    · next h =>
      rw [if_neg h] at hk
      have h0 := not_le.1 h
      have h1 := Int.le_ceil (q - 1 / 2)
      have h2 := Int.ceil_lt_add_one (q - 1 / 2)
      generalize ⌈q - 1 / 2⌉ = n at *
      rcases lt_or_gt_of_ne hk with h3 | h3
      · have h4 : (k : ℚ) ≤ n - 1 := by exact_mod_cast (show k ≤ n - 1 by omega)
        left
        rw [abs_of_neg (show (k : ℚ) - q < 0 by linarith), abs_lt]
        constructor <;> linarith
      · have h4 : (n : ℚ) + 1 ≤ k := by exact_mod_cast (show n + 1 ≤ k by omega)
        rw [abs_of_nonneg (show 0 ≤ (k : ℚ) - q by linarith)]
        rcases lt_or_ge (q - n) ((k : ℚ) - q) with h5 | h5
        · left; rw [abs_lt]; constructor <;> linarith
        · right
          have h6 : (k : ℚ) = n + 1 := by linarith
          refine ⟨by rw [abs_of_nonpos (by linarith)]; linarith, ?_⟩
          have h8 : k ≤ 0 := by
            have : (k : ℚ) < 0 + 1 := by linarith
            have : k < 0 + 1 := by exact_mod_cast this
            omega
          have h9 : (k : ℚ) ≤ 0 := by exact_mod_cast h8
          rw [abs_of_nonpos h9, abs_of_nonpos (by linarith)]
          linarith

/-- They do not change infinities and NaN. -/
theorem C94_special (name : String) (hn : name ∈ ["floor", "ceil", "trunc", "round"]) (ho : Builtin name .function o) (x : Dbl)
    (hx : ∀ q, x ≠ fin q) : evalOp (arith Dbl.round L) hist rnd fuel o [x] = .ok x := by
  have key : ∀ f : ℚ → ℤ, Dbl.toInteger f x = x := by
    intro f
    cases x with
    | fin q => exact absurd rfl (hx q)
    | inf s => rfl
    | nan => rfl
  simp only [List.mem_cons, List.not_mem_nil, or_false] at hn
  unfold evalOp
  rcases hn with rfl | rfl | rfl | rfl
  · rw [ho.id (k := 38) (by decide +kernel)]; exact congrArg Except.ok (key _)
  · rw [ho.id (k := 37) (by decide +kernel)]; exact congrArg Except.ok (key _)
  · rw [ho.id (k := 40) (by decide +kernel)]; exact congrArg Except.ok (key _)
  · rw [ho.id (k := 39) (by decide +kernel)]; exact congrArg Except.ok (key _)

theorem frac_eval (ho : Builtin "frac" .function o) (q : ℚ) :
    evalOp (arith Dbl.round L) hist rnd fuel o [fin q] = .ok (Dbl.round (q - ⌊q⌋)) := by
  unfold evalOp
  rw [ho.id (k := 41) (by decide +kernel)]
  show Except.ok (Dbl.round (q + -(⌊q⌋ : ℚ))) = _
  rw [← sub_eq_add_neg]

/-- **C94**: `frac(x)`, full statement: what is left of `x` after an integer, from 0 on and below 1. -/
def Fraction (q : ℚ) (r : Dbl) : Prop := ∃ (n : ℤ) (x : ℚ), r = fin x ∧ q = n + x ∧ 0 ≤ x ∧ x < 1

/-- **C94** holds for `frac` of numbers that are not negative: the result is exact. -/
theorem C94_frac_partial (ho : Builtin "frac" .function o) (q : ℚ) (hq : Binary64 q) (h0 : 0 ≤ q) :
    ∃ r, evalOp (arith Dbl.round L) hist rnd fuel o [fin q] = .ok r ∧ Fraction q r := by
  refine ⟨fin (q - ⌊q⌋), ?_, ⌊q⌋, _, rfl, by ring, by linarith [Int.floor_le q], by linarith [Int.lt_floor_add_one q]⟩
  rw [frac_eval L o hist rnd fuel ho, round_binary64]
  have h1 := Int.floor_le q
  have h2 := Int.lt_floor_add_one q
  have h3 : (0 : ℚ) ≤ ⌊q⌋ := by exact_mod_cast Int.floor_nonneg.2 h0
  obtain ⟨m, e, hm, he1, he2, hx⟩ := hq
  have hp : (0 : ℚ) < 2 ^ e := zpow_pos (by norm_num) _
  rcases le_or_gt 0 e with he | he
  · obtain ⟨n, hn⟩ := multiple he m
    have : q = n := by rw [hx, hn]; simp
    rw [this, Int.floor_intCast, sub_self]
    exact binary64_zero
  · obtain ⟨d, hd⟩ := multiple he.le ⌊q⌋
    rw [zpow_zero, mul_one] at hd
    refine ⟨m - d, e, ?_, he1, he2, ?_⟩
    · have h4 : (0 : ℚ) ≤ ((m - d : ℤ) : ℚ) * 2 ^ e := by
        have : ((m - d : ℤ) : ℚ) * 2 ^ e = q - ⌊q⌋ := by push_cast; rw [sub_mul, ← hx, ← hd]
        rw [this]; linarith
      have h5 : 0 ≤ m - d := by
        have := nonneg_of_mul_nonneg_left h4 hp
        exact_mod_cast this
      have h6 : 0 ≤ d := by
        rw [hd] at h3
        have := nonneg_of_mul_nonneg_left h3 hp
        exact_mod_cast this
      rw [abs_of_nonneg h5]
      have := (abs_lt.1 hm).2
      omega
    · push_cast
      rw [sub_mul, ← hx, ← hd]

/-- **C94**: of any number, it is from 0 to 1. -/
theorem C94_frac_range (ho : Builtin "frac" .function o) (q : ℚ) :
    ∃ x, evalOp (arith Dbl.round L) hist rnd fuel o [fin q] = .ok (fin x) ∧ 0 ≤ x ∧ x ≤ 1 := by
  have h1 := Int.floor_le q
  have h2 := Int.lt_floor_add_one q
  have h3 := C93_monotone (q := 0) (q' := q - ⌊q⌋) (by linarith)
  have h4 := C93_monotone (q := q - ⌊q⌋) (q' := 1) (by linarith)
  have e0 : Dbl.round 0 = fin 0 := round_binary64 binary64_zero
  have e1 : Dbl.round 1 = fin 1 := by
    have := round_int (n := 1) (by norm_num)
    exact_mod_cast this
  rw [e0] at h3
  rw [e1] at h4
  rw [frac_eval L o hist rnd fuel ho]
  rcases hx : Dbl.round (q - ⌊q⌋) with x | s | _
  · rw [hx] at h3 h4
    exact ⟨x, rfl, h3, h4⟩
  · rw [hx] at h3 h4
    change s = false at h3
    change s = true at h4
    rw [h3] at h4
    cases h4
  · exact absurd hx (C93_number _)

/-- **C94** fails for `frac` of small negative numbers: that of -2^-60 is 1. -/
theorem C94_frac_one (ho : Builtin "frac" .function o) :
    Binary64 (-(1 / 2 ^ 60)) ∧ evalOp (arith Dbl.round L) hist rnd fuel o [fin (-(1 / 2 ^ 60))] = .ok (fin 1) ∧
    ¬ Fraction (-(1 / 2 ^ 60)) (fin 1) := by
  refine ⟨⟨-1, -60, by norm_num, by norm_num, by norm_num, by norm_num [zpow_neg]⟩, ?_, ?_⟩
  · rw [frac_eval L o hist rnd fuel ho]
    congr 1
    decide +kernel
  · rintro ⟨n, x, h1, h2, h3, h4⟩
    cases h1
    exact lt_irrefl _ h4

/-- **C94**: `sgn(x)` is the sign of `x`. -/
theorem C94_sgn (ho : Builtin "sgn" .function o) (x : Dbl) (hx : x ≠ nan) :
    ∃ n : ℤ, evalOp (arith Dbl.round L) hist rnd fuel o [x] = .ok (fin n) ∧
      (n = -1 ∧ Below x (fin 0) ∧ x ≠ fin 0 ∨ n = 0 ∧ x = fin 0 ∨ n = 1 ∧ Below (fin 0) x ∧ x ≠ fin 0) := by
  have e : ∀ n : ℤ, |n| ≤ 2 ^ 53 → (arith Dbl.round L).ofInt n = fin n := fun n h => round_int h
  unfold evalOp
  rw [ho.id (k := 42) (by decide +kernel)]
  simp only [arg1, e 0 (by norm_num), e 1 (by norm_num), e (-1) (by norm_num)]
  rcases x with q | (_ | _) | _
  · rcases lt_trichotomy q 0 with h | h | h
    · exact ⟨-1, by simp [Dbl.lt, h], .inl ⟨rfl, h.le, by simp; exact h.ne⟩⟩
    · exact ⟨0, by simp [Dbl.lt, h], .inr (.inl ⟨rfl, by rw [h]⟩)⟩
    · exact ⟨1, by simp [Dbl.lt, h, h.not_gt], .inr (.inr ⟨rfl, h.le, by simp; exact h.ne'⟩)⟩
  · exact ⟨1, by simp [Dbl.lt], .inr (.inr ⟨rfl, rfl, by simp⟩)⟩
  · exact ⟨-1, by simp [Dbl.lt], .inl ⟨rfl, rfl, by simp⟩⟩
  · exact absurd rfl hx

/-! ## Extrema -/

theorem max_step (l : List Dbl) : ∀ m : Dbl, m ≠ nan → ∃ k, k ≠ nan ∧ (k = m ∨ k ∈ l) ∧ Below m k ∧ (∀ a ∈ l, a ≠ nan → Below a k) ∧
    l.foldl (fun res a => if Dbl.lt res a = true then a else res) m = k := by
  obtain ⟨hr, ht, -, htr⟩ := below_order
  induction l with
  | nil => exact fun m hm => ⟨m, hm, .inl rfl, (hr m).1 hm, by simp, rfl⟩
  | cons b l ih =>
    intro m hm
    rw [List.foldl_cons]
    by_cases h : Dbl.lt m b = true
    · rw [if_pos h]
      have hb : b ≠ nan := by
        rintro rfl
        cases m <;> simp [Dbl.lt] at h
      obtain ⟨k, h1, h2, h3, h4, h5⟩ := ih b hb
      refine ⟨k, h1, ?_, htr _ _ _ ((C93_order m b).1.1 h).1 h3, ?_, h5⟩
      · rcases h2 with rfl | h2
        · exact .inr (by simp)
        · exact .inr (by simp [h2])
      · intro a ha hn
        rcases List.mem_cons.1 ha with rfl | ha
        · exact h3
        · exact h4 a ha hn
    · rw [if_neg h]
      obtain ⟨k, h1, h2, h3, h4, h5⟩ := ih m hm
      refine ⟨k, h1, ?_, h3, ?_, h5⟩
      · rcases h2 with rfl | h2
        · exact .inl rfl
        · exact .inr (by simp [h2])
      · intro a ha hn
        rcases List.mem_cons.1 ha with rfl | ha
        · refine htr _ _ _ ?_ h3
          rcases ht a m hn hm with h6 | h6
          · exact h6
          · by_contra h7
            exact h ((C93_order m a).1.2 ⟨h6, h7⟩)
        · exact h4 a ha hn

theorem min_step (l : List Dbl) : ∀ m : Dbl, m ≠ nan → ∃ k, k ≠ nan ∧ (k = m ∨ k ∈ l) ∧ Below k m ∧ (∀ a ∈ l, a ≠ nan → Below k a) ∧
    l.foldl (fun res a => if Dbl.lt a res = true then a else res) m = k := by
  obtain ⟨hr, ht, -, htr⟩ := below_order
  induction l with
  | nil => exact fun m hm => ⟨m, hm, .inl rfl, (hr m).1 hm, by simp, rfl⟩
  | cons b l ih =>
    intro m hm
    rw [List.foldl_cons]
    by_cases h : Dbl.lt b m = true
    · rw [if_pos h]
      have hb : b ≠ nan := by
        rintro rfl
        cases m <;> simp [Dbl.lt] at h
      obtain ⟨k, h1, h2, h3, h4, h5⟩ := ih b hb
      refine ⟨k, h1, ?_, htr _ _ _ h3 ((C93_order b m).1.1 h).1, ?_, h5⟩
      · rcases h2 with rfl | h2
        · exact .inr (by simp)
        · exact .inr (by simp [h2])
      · intro a ha hn
        rcases List.mem_cons.1 ha with rfl | ha
        · exact h3
        · exact h4 a ha hn
    · rw [if_neg h]
      obtain ⟨k, h1, h2, h3, h4, h5⟩ := ih m hm
      refine ⟨k, h1, ?_, h3, ?_, h5⟩
      · rcases h2 with rfl | h2
        · exact .inl rfl
        · exact .inr (by simp [h2])
      · intro a ha hn
        rcases List.mem_cons.1 ha with rfl | ha
        · refine htr _ _ _ h3 ?_
          rcases ht m a hm hn with h6 | h6
          · exact h6
          · by_contra h7
            exact h ((C93_order a m).1.2 ⟨h6, h7⟩)
        · exact h4 a ha hn

/-- **C94**: `max` is the greatest of its arguments, infinities included; NaN is passed over. -/
theorem C94_max (ho : Builtin "max" .function o) (args : List Dbl) (ha : ∃ a ∈ args, a ≠ nan) :
    ∃ m ∈ args, m ≠ nan ∧ (∀ a ∈ args, a ≠ nan → Below a m) ∧ evalOp (arith Dbl.round L) hist rnd fuel o args = .ok m := by
  obtain ⟨k, h1, h2, h3, h4, h5⟩ := max_step args (inf true) (by simp)
  refine ⟨k, ?_, h1, h4, ?_⟩
  · rcases h2 with rfl | h2
    · obtain ⟨a, ha, hn⟩ := ha
      have := h4 a ha hn
      rcases a with q | (_ | _) | _ <;> simp [Below] at this hn
      exact ha
    · exact h2
  · unfold evalOp
    rw [ho.id (k := 34) (by decide +kernel)]
    exact congrArg Except.ok h5

/-- **C94**: `min` is the least of them. -/
theorem C94_min (ho : Builtin "min" .function o) (args : List Dbl) (ha : ∃ a ∈ args, a ≠ nan) :
    ∃ m ∈ args, m ≠ nan ∧ (∀ a ∈ args, a ≠ nan → Below m a) ∧ evalOp (arith Dbl.round L) hist rnd fuel o args = .ok m := by
  obtain ⟨k, h1, h2, h3, h4, h5⟩ := min_step args (inf false) (by simp)
  refine ⟨k, ?_, h1, h4, ?_⟩
  · rcases h2 with rfl | h2
    · obtain ⟨a, ha, hn⟩ := ha
      have := h4 a ha hn
      rcases a with q | (_ | _) | _ <;> simp [Below] at this hn
      exact ha
    · exact h2
  · unfold evalOp
    rw [ho.id (k := 35) (by decide +kernel)]
    exact congrArg Except.ok h5

/-! ## Sums and means -/

/-- Sums of doubles have no error below the last bit: the relative error of one addition. -/
theorem add_error {a b x : ℚ} (ha : Binary64 a) (hb : Binary64 b) (h : Dbl.round (a + b) = fin x) :
    |x - (a + b)| ≤ 1 / 2 ^ 53 * |a + b| := by
  have hu : (0 : ℚ) ≤ 1 / 2 ^ 53 := by norm_num
  rcases eq_or_ne (a + b) 0 with h0 | h0
  · rw [h0, round_binary64 binary64_zero] at h
    cases h
    rw [h0]; simp
  obtain ⟨rfl, -⟩ := round_fin h
  rcases (le_lastBit (a + b)).eq_or_lt with hl | hl
  · have hm : ∀ y, Binary64 y → ∃ n : ℤ, y = n * 2 ^ (-1074 : ℤ) := by
      rintro y ⟨m, e, -, h1, -, rfl⟩
      exact multiple h1 m
    obtain ⟨n, hn⟩ := hm a ha
    obtain ⟨k, hk⟩ := hm b hb
    have e : a + b = ((n + k : ℤ) : ℚ) * 2 ^ (-1074 : ℤ) := by push_cast; rw [add_mul, ← hn, ← hk]
    have hz : rounded (a + b) = a + b := by
      have hp : (2 : ℚ) ^ (-1074 : ℤ) ≠ 0 := zpow_ne_zero _ (by norm_num)
      unfold rounded
      rw [← hl, e, mul_div_assoc, div_self hp, mul_one, halfEven_int]
    rw [hz, sub_self, abs_zero]
    exact mul_nonneg hu (abs_nonneg _)
  · have h2 := lastBit_lower h0 hl
    have h3 := halfEven_error ((a + b) / 2 ^ lastBit (a + b))
    have hp : (0 : ℚ) < 2 ^ lastBit (a + b) := zpow_pos (by norm_num) _
    rw [zpow_add₀ (by norm_num)] at h2
    unfold rounded
    generalize (2 : ℚ) ^ lastBit (a + b) = w at *
    have e : ∀ y : ℚ, |y * w - (a + b)| = |y - (a + b) / w| * w := by
      intro y
      rw [← abs_of_pos hp, ← abs_mul, abs_of_pos hp, sub_mul, div_mul_cancel₀ _ hp.ne']
    rw [e]
    have h4 := mul_le_mul_of_nonneg_right h3 hp.le
    norm_num at h2 ⊢
    linarith

theorem fold_inf (l : List Dbl) (x : Dbl) (hx : ∀ q, x ≠ fin q) : ∀ s, l.foldl (Dbl.add Dbl.round) x ≠ fin s := by
  induction l generalizing x with
  | nil => exact hx
  | cons a l ih =>
    rw [List.foldl_cons]
    refine ih _ (fun q => ?_)
    rcases x with q | s | _
    · exact absurd rfl (hx q)
    · cases a <;> simp only [Dbl.add] <;> first | (intro h; cases h; done) | (split <;> intro h <;> cases h)
    · cases a <;> intro h <;> cases h

/-- **C94**: the sum of doubles is within `(1 + 2^-53)^n - 1` of the exact sum, relative to the sum of the sizes, unless it
overflows. -/
theorem C94_sum (ho : Builtin "sum" .function o) (qs : List ℚ) (hq : ∀ q ∈ qs, Binary64 q) (s : ℚ)
    (h : evalOp (arith Dbl.round L) hist rnd fuel o (qs.map fin) = .ok (fin s)) :
    |s - qs.sum| ≤ ((1 + 1 / 2 ^ 53) ^ qs.length - 1) * (qs.map fun q => |q|).sum := by
  unfold evalOp at h
  rw [ho.id (k := 43) (by decide +kernel)] at h
  have h : (qs.map fin).foldl (Dbl.add Dbl.round) ((arith Dbl.round L).ofInt 0) = fin s := by
    injection h
  have e0 : (arith Dbl.round L).ofInt 0 = fin 0 := by
    have := round_int (n := 0) (by norm_num)
    rw [Int.cast_zero] at this
    exact_mod_cast this
  rw [e0] at h
  -- from a partial sum on
  have key : ∀ (l : List ℚ) (n : ℕ) (x S T : ℚ), (∀ q ∈ l, Binary64 q) → Binary64 x → |S| ≤ T →
      |x - S| ≤ ((1 + 1 / 2 ^ 53) ^ n - 1) * T → (l.map fin).foldl (Dbl.add Dbl.round) (fin x) = fin s →
      |s - (S + l.sum)| ≤ ((1 + 1 / 2 ^ 53) ^ (n + l.length) - 1) * (T + (l.map fun q => |q|).sum) := by
    intro l
    induction l with
    | nil =>
      intro n x S T _ _ _ hd hs
      cases hs
      simpa using hd
    | cons a l ih =>
      intro n x S T hl hx hS hd hs
      rw [List.map_cons, List.foldl_cons] at hs
      have hs' : (l.map fin).foldl (Dbl.add Dbl.round) (Dbl.round (x + a)) = fin s := hs
      rcases hy : Dbl.round (x + a) with y | t | _
      · rw [hy] at hs'
        have ha := hl a (by simp)
        have herr := add_error hx ha hy
        have := ih (n + 1) y (S + a) (T + |a|) (fun q hq => hl q (by simp [hq])) (C93_nearest hy).1
          ((abs_add_le _ _).trans (by linarith)) ?_ hs'
        · simp only [List.sum_cons, List.length_cons, List.map_cons]
          rw [show n + (l.length + 1) = n + 1 + l.length by omega, ← add_assoc S, ← add_assoc T]
          exact this
        · have h1 : |x + a| ≤ |x - S| + (T + |a|) := by
            have e : x + a = (x - S) + (S + a) := by ring
            rw [e]
            exact (abs_add_le _ _).trans (by linarith [abs_add_le S a])
          have h2 : |y - (S + a)| ≤ |y - (x + a)| + |x - S| := by
            have e : y - (S + a) = (y - (x + a)) + (x - S) := by ring
            rw [e]
            exact abs_add_le _ _
          have hT : 0 ≤ T := (abs_nonneg _).trans hS
          have ha0 := abs_nonneg a
          have hg : (1 : ℚ) ≤ (1 + 1 / 2 ^ 53) ^ n := one_le_pow₀ (by norm_num)
          rw [pow_succ]
          generalize (1 + 1 / 2 ^ 53 : ℚ) ^ n = g at *
          have hu : (0 : ℚ) < 1 / 2 ^ 53 := by norm_num
          generalize (1 / 2 ^ 53 : ℚ) = u at *
          have h3 := mul_le_mul_of_nonneg_left h1 hu.le
          have h4 : u * |x - S| ≤ u * ((g - 1) * T) := mul_le_mul_of_nonneg_left hd hu.le
          have h5 : 0 ≤ (g - 1) * (1 + u) * |a| := mul_nonneg (mul_nonneg (by linarith) (by linarith)) ha0
          nlinarith
      · rw [hy] at hs'
        exact absurd hs' (fold_inf _ _ (by simp) _)
      · exact absurd hy (C93_number _)
  have := key qs 0 0 0 0 hq binary64_zero (by simp) (by simp) h
  simpa using this

theorem avg_eval (ho : Builtin "avg" .function o) (a : Dbl) (l : List Dbl) :
    evalOp (arith Dbl.round L) hist rnd fuel o (a :: l) =
      .ok (Dbl.div Dbl.round ((a :: l).foldl (Dbl.add Dbl.round) (Dbl.round (0 : ℤ))) (Dbl.round ((a :: l).length : ℤ))) := by
  unfold evalOp
  rw [ho.id (k := 45) (by decide +kernel)]
  rfl

/-- **C94**: the mean of numbers, full statement: it is not below all of them and not above all of them. -/
def Between (qs : List ℚ) (r : Dbl) : Prop := ∃ a ∈ qs, ∃ b ∈ qs, Below (fin a) r ∧ Below r (fin b)

theorem binary64_twice {a : ℚ} (ha : Binary64 a) (h : |2 * a| < 2 ^ (1024 : ℕ)) : Binary64 (2 * a) := by
  obtain ⟨m, e, hm, h1, h2, rfl⟩ := ha
  rcases h2.lt_or_eq with h3 | h3
  · refine ⟨m, e + 1, hm, by omega, by omega, ?_⟩
    rw [zpow_add_one₀ (by norm_num)]; ring
  · subst h3
    refine ⟨2 * m, 971, ?_, by norm_num, by norm_num, by push_cast; ring⟩
    have e1 : (2 : ℚ) ^ (1024 : ℕ) = 2 ^ 53 * 2 ^ (971 : ℤ) := by
      rw [show (2 : ℚ) ^ (971 : ℤ) = 2 ^ (971 : ℕ) from zpow_natCast _ 971, ← pow_add]
    have hp : (0 : ℚ) < 2 ^ (971 : ℤ) := zpow_pos (by norm_num) _
    rw [e1, ← mul_assoc, abs_mul, abs_of_pos hp] at h
    have := lt_of_mul_lt_mul_right h hp.le
    have h4 : |((2 * m : ℤ) : ℚ)| < 2 ^ 53 := by push_cast; exact this
    exact_mod_cast h4

/-- **C94** holds for the mean of two numbers whose sum does not overflow. -/
theorem C94_avg_partial (ho : Builtin "avg" .function o) (a b : ℚ) (ha : Binary64 a) (hb : Binary64 b)
    (hs : |a + b| < 2 ^ (1024 : ℕ) - 2 ^ (970 : ℕ)) :
    ∃ r, evalOp (arith Dbl.round L) hist rnd fuel o [fin a, fin b] = .ok r ∧ Between [a, b] r := by
  have e0 : Dbl.round ((0 : ℤ) : ℚ) = fin 0 := by exact_mod_cast round_int (n := 0) (by norm_num)
  have e2 : Dbl.round (((2 : ℕ) : ℤ) : ℚ) = fin 2 := by exact_mod_cast round_int (n := 2) (by norm_num)
  rw [avg_eval L o hist rnd fuel ho]
  have e3 : [fin a, fin b].foldl (Dbl.add Dbl.round) (Dbl.round ((0 : ℤ) : ℚ)) = Dbl.round (a + b) := by
    rw [e0]
    show Dbl.add Dbl.round (Dbl.round (0 + a)) (fin b) = _
    rw [zero_add, round_binary64 ha]
    rfl
  rw [e3, show ([fin a, fin b] : List Dbl).length = 2 from rfl, e2]
  refine ⟨_, rfl, ?_⟩
  -- the same for ordered numbers
  have key : ∀ a b : ℚ, Binary64 a → Binary64 b → a ≤ b → |a + b| < 2 ^ (1024 : ℕ) - 2 ^ (970 : ℕ) →
      Below (fin a) (Dbl.div Dbl.round (Dbl.round (a + b)) (fin 2)) ∧ Below (Dbl.div Dbl.round (Dbl.round (a + b)) (fin 2)) (fin b) := by
    intro a b ha hb hab hs
    rcases hx : Dbl.round (a + b) with x | s | _
    · have hlow : 2 * a ≤ x := by
        by_cases hc : |2 * a| < 2 ^ (1024 : ℕ)
        · have := C93_monotone (show 2 * a ≤ a + b by linarith)
          rw [round_binary64 (binary64_twice ha hc), hx] at this
          exact this
        · have hlt := binary64_lt (C93_nearest hx).1
          rw [not_lt] at hc
          rcases le_total 0 a with h0 | h0
          · rw [abs_of_nonneg (by linarith)] at hc
            rw [abs_of_nonneg (add_nonneg h0 (h0.trans hab))] at hs
            have : (0 : ℚ) ≤ 2 ^ (970 : ℕ) := by positivity
            generalize (2 : ℚ) ^ (970 : ℕ) = E at this hs
            generalize (2 : ℚ) ^ (1024 : ℕ) = F at hc hs
            linarith
          · rw [abs_of_nonpos (by linarith)] at hc
            have := (abs_lt.1 hlt).1
            generalize (2 : ℚ) ^ (1024 : ℕ) = F at hc this
            linarith
      have hhigh : x ≤ 2 * b := by
        by_cases hc : |2 * b| < 2 ^ (1024 : ℕ)
        · have := C93_monotone (show a + b ≤ 2 * b by linarith)
          rw [round_binary64 (binary64_twice hb hc), hx] at this
          exact this
        · have hlt := binary64_lt (C93_nearest hx).1
          rw [not_lt] at hc
          rcases le_total 0 b with h0 | h0
          · rw [abs_of_nonneg (by linarith)] at hc
            have := (abs_lt.1 hlt).2
            generalize (2 : ℚ) ^ (1024 : ℕ) = F at hc this
            linarith
          · rw [abs_of_nonpos (by linarith)] at hc
            rw [abs_of_nonpos (add_nonpos (hab.trans h0) h0)] at hs
            have : (0 : ℚ) ≤ 2 ^ (970 : ℕ) := by positivity
            generalize (2 : ℚ) ^ (970 : ℕ) = E at this hs
            generalize (2 : ℚ) ^ (1024 : ℕ) = F at hc hs
            linarith
      have hdiv : Dbl.div Dbl.round (fin x) (fin 2) = Dbl.round (x / 2) := by simp [Dbl.div]
      rw [hdiv]
      constructor
      · have := C93_monotone (show a ≤ x / 2 by linarith)
        rwa [round_binary64 ha] at this
      · have := C93_monotone (show x / 2 ≤ b by linarith)
        rwa [round_binary64 hb] at this
    · exact absurd ((C93_overflow _ _).1 hx).1 (not_le.2 hs)
    · exact absurd hx (C93_number _)
  rcases le_total a b with h | h
  · exact ⟨a, by simp, b, by simp, key a b ha hb h hs⟩
  · have := key b a hb ha h (by rwa [add_comm])
    rw [add_comm b a] at this
    exact ⟨b, by simp, a, by simp, this⟩

/-- **C94** fails for the mean of numbers whose sum overflows: that of 2^1023 and itself is infinite. -/
theorem C94_avg_overflow (ho : Builtin "avg" .function o) :
    evalOp (arith Dbl.round L) hist rnd fuel o [fin (2 ^ 1023), fin (2 ^ 1023)] = .ok (inf false) ∧
    ¬ Between [2 ^ 1023, 2 ^ 1023] (inf false) := by
  constructor
  · rw [avg_eval L o hist rnd fuel ho]
    congr 1
    decide +kernel
  · rintro ⟨a, -, b, -, -, h⟩
    cases h

/-- **C94** fails for the mean of more numbers: that of ten tenths is less than a tenth. -/
theorem C94_avg_tenths (ho : Builtin "avg" .function o) :
    ∃ x, Dbl.round (1 / 10) = fin x ∧ ∃ r, evalOp (arith Dbl.round L) hist rnd fuel o (List.replicate 10 (fin x)) = .ok r ∧
      ¬ Between (List.replicate 10 x) r := by
  refine ⟨3602879701896397 / 2 ^ 55, by decide +kernel, fin (7205759403792793 / 2 ^ 56), ?_, ?_⟩
  · rw [List.replicate_succ, avg_eval L o hist rnd fuel ho]
    congr 1
    decide +kernel
  · rintro ⟨a, ha, b, -, h, -⟩
    rw [List.mem_replicate] at ha
    obtain ⟨-, rfl⟩ := ha
    change (3602879701896397 / 2 ^ 55 : ℚ) ≤ 7205759403792793 / 2 ^ 56 at h
    norm_num at h

/-- The operators of these theorems exist. -/
example : ∀ name ∈ ["floor", "ceil", "trunc", "round", "frac", "sgn", "max", "min", "sum", "avg"], ∃ o, Builtin name .function o := by
  intro name hn
  simp only [List.mem_cons, List.not_mem_nil, or_false] at hn
  rcases hn with rfl | rfl | rfl | rfl | rfl | rfl | rfl | rfl | rfl | rfl <;> exact builtin_exists (by decide +kernel)

/-- `round(-2.5) = -3`, `trunc(-2.5) = -2`, `floor(-2.5) = -3`, `ceil(-2.5) = -2`. -/
example : roundQ (-5 / 2) = -3 ∧ truncQ (-5 / 2) = -2 ∧ ⌊(-5 / 2 : ℚ)⌋ = -3 ∧ ⌈(-5 / 2 : ℚ)⌉ = -2 ∧ roundQ (5 / 2) = 3 := by
  decide +kernel

/-- The assumptions of `C94_frac_partial` and `C94_avg_partial` are met; the sum of 0.1 and 0.2 is not exact. -/
example : Binary64 (5 / 2) ∧ Binary64 (-1) ∧ |(5 / 2 + -1 : ℚ)| < 2 ^ (1024 : ℕ) - 2 ^ (970 : ℕ) ∧
    ∃ a b s, Dbl.round (1 / 10) = fin a ∧ Dbl.round (2 / 10) = fin b ∧ Dbl.round (a + b) = fin s ∧ s ≠ a + b := by
  refine ⟨⟨5, -1, by norm_num, by norm_num, by norm_num, by norm_num⟩, ⟨-1, 0, by norm_num, by norm_num, by norm_num, by norm_num⟩,
    by decide +kernel, 3602879701896397 / 2 ^ 55, 3602879701896397 / 2 ^ 54, 1351079888211149 / 2 ^ 52, by decide +kernel,
    by decide +kernel, by decide +kernel, by norm_num⟩

end Verif.DoublesProps
