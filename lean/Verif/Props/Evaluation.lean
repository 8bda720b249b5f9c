import Verif.Lemmas.Evaluation
import Verif.Lemmas.Simplification
import Verif.Props.TreeUtil

/-!
# C38 - C42: evaluation of operators

`Dbl.arith Dbl.round L` is arithmetic with doubles, `Dbl.arith Dbl.fin L` exact
arithmetic; `L` are the functions of the C library.
-/

namespace Verif.EvaluationProps
open Verif Dbl


/-- The operator of the calculator with the given name and placement. -/
def Builtin (name : String) (pl : Placement) (o : Op) : Prop :=
  ∃ c a, arithCtx = .ok c ∧ c.lookup name.toList pl = .ok (some (a, o))

theorem Builtin.id {name : String} {pl : Placement} {o : Op} {k : ℕ} (h : Builtin name pl o)
    (hk : (Ctx.findOp builtin name.toList pl).map (·.2.id) = some k) : o.id = k := by
  obtain ⟨c, a, h1, h2⟩ := h
  obtain ⟨c', h3, h4⟩ := arithCtx_ok
  rw [h1] at h3
  cases h3
  rw [h4.inv.lookup, arithCtx_builtin h1] at h2
  simp only [Res.ok.injEq] at h2
  rw [h2] at hk
  simpa using hk

/-- The operators named in the theorems exist. -/
theorem builtin_exists {name : String} {pl : Placement} (h : (Ctx.findOp builtin name.toList pl).isSome = true) :
    ∃ o, Builtin name pl o := by
  obtain ⟨c, h3, h4⟩ := arithCtx_ok
  obtain ⟨⟨a, o⟩, hx⟩ := Option.isSome_iff_exists.mp h
  exact ⟨o, c, a, h3, by rw [h4.inv.lookup, arithCtx_builtin h3, hx]⟩

example : (∃ o, Builtin "gcd" .function o) ∧ (∃ o, Builtin "lcm" .function o) ∧ (∃ o, Builtin "C" .infix o) ∧
    (∃ o, Builtin "!" .postfix o) ∧ (∃ o, Builtin "fib" .function o) ∧ (∃ o, Builtin "@" .prefix o) ∧
    ∃ o, Builtin "ans" .function o := by
  refine ⟨?_, ?_, ?_, ?_, ?_, ?_, ?_⟩ <;> exact builtin_exists (by decide +kernel)

/-! ## C39 -/

/-- **C39**, gcd: for numbers whose integer parts are exactly represented (all, in exact
arithmetic; up to 2^53, with doubles) `gcd` computes the greatest common divisor of
the integer parts, and the computation ends. -/
theorem C39_gcd (r : ℚ → Dbl) (L : Lib) (N : ℕ) (hr : ExactTo r N) (o : Op) (ho : Builtin "gcd" .function o)
    (hist : List Dbl) (rnd : ℕ) (x y : ℚ) (hx : |truncQ x| ≤ N) (hy : |truncQ y| ≤ N) :
    ∃ m, ∀ fuel, m ≤ fuel → evalOp (arith r L) hist rnd fuel o [fin x, fin y] =
      .ok (fin (Int.gcd (truncQ x) (truncQ y) : ℤ)) := by
  refine ⟨(truncQ x).natAbs + (truncQ y).natAbs + 1, fun fuel hf => ?_⟩
  have hid := ho.id (k := 46) (by decide +kernel)
  unfold evalOp
  rw [hid]
  show looped ((arith r L).euclid fuel (fin x) (fin y)) = _
  rw [euclid_spec hr x y hx hy fuel (by omega)]
  rfl

/-- With doubles, for natural numbers up to 2^53. -/
theorem C39_gcd_double (L : Lib) (o : Op) (ho : Builtin "gcd" .function o) (hist : List Dbl) (rnd a b : ℕ)
    (ha : a ≤ 2 ^ 53) (hb : b ≤ 2 ^ 53) :
    ∃ m, ∀ fuel, m ≤ fuel → evalOp (arith round L) hist rnd fuel o [fin a, fin b] = .ok (fin (Nat.gcd a b)) := by
  have t (n : ℕ) : truncQ (n : ℚ) = n := truncQ_int n
  have := C39_gcd round L (2 ^ 53) exact_round o ho hist rnd a b (by rw [t, Nat.abs_cast]; exact_mod_cast ha)
    (by rw [t, Nat.abs_cast]; exact_mod_cast hb)
  rw [t, t] at this
  simpa using this

/-- In exact arithmetic, for all natural numbers. -/
theorem C39_gcd_exact (L : Lib) (o : Op) (ho : Builtin "gcd" .function o) (hist : List Dbl) (rnd a b : ℕ) :
    ∃ m, ∀ fuel, m ≤ fuel → evalOp (arith fin L) hist rnd fuel o [fin a, fin b] = .ok (fin (Nat.gcd a b)) := by
  have t (n : ℕ) : truncQ (n : ℚ) = n := truncQ_int n
  have := C39_gcd fin L (max a b) (exact_fin _) o ho hist rnd a b (by rw [t, Nat.abs_cast]; omega)
    (by rw [t, Nat.abs_cast]; omega)
  rw [t, t] at this
  simpa using this

/-- **C39**, lcm: the same for the least common multiple, if not both integer parts are
zero. -/
theorem C39_lcm_partial (r : ℚ → Dbl) (L : Lib) (N : ℕ) (hr : ExactTo r N) (o : Op) (ho : Builtin "lcm" .function o)
    (hist : List Dbl) (rnd : ℕ) (x y : ℚ) (hx : |truncQ x| ≤ N) (hy : |truncQ y| ≤ N)
    (hxy : |truncQ x * truncQ y| ≤ N) (h0 : truncQ x ≠ 0 ∨ truncQ y ≠ 0) :
    ∃ m, ∀ fuel, m ≤ fuel → evalOp (arith r L) hist rnd fuel o [fin x, fin y] =
      .ok (fin (Int.lcm (truncQ x) (truncQ y) : ℤ)) := by
  refine ⟨(truncQ x).natAbs + (truncQ y).natAbs + 1, fun fuel hf => ?_⟩
  have hid := ho.id (k := 47) (by decide +kernel)
  unfold evalOp
  rw [hid]
  show looped (((arith r L).euclid fuel (fin x) (fin y)).map _) = _
  rw [euclid_spec hr x y hx hy fuel (by omega)]
  simp only [Option.map_some, arith_div, arith_fabs, arith_mul, arith_trunc, toInteger, looped]
  rw [mul_int hr hxy]
  have hpos : 0 < Int.gcd (truncQ x) (truncQ y) := Int.gcd_pos_iff.mpr h0
  have hmul := Int.gcd_mul_lcm (truncQ x) (truncQ y)
  rw [← Int.natAbs_mul] at hmul
  have habs : Dbl.abs (fin ((truncQ x * truncQ y : ℤ) : ℚ)) = fin (((truncQ x * truncQ y).natAbs : ℤ) : ℚ) := by
    simp [Dbl.abs, Int.natCast_natAbs]
  rw [habs, div_int hr (c := (Int.lcm (truncQ x) (truncQ y) : ℤ)) ?_ (by omega)]
  · rw [← hmul]; push_cast; ring
  · rw [Nat.abs_cast]
    have : Int.lcm (truncQ x) (truncQ y) ≤ (truncQ x * truncQ y).natAbs := by
      rw [← hmul]; exact Nat.le_mul_of_pos_left _ hpos
    have h2 := natAbs_le hxy
    omega

example : (|truncQ (12 : ℚ)| ≤ ((2 ^ 53 : ℕ) : ℤ)) ∧ |truncQ (12 : ℚ) * truncQ (18 : ℚ)| ≤ ((2 ^ 53 : ℕ) : ℤ) := by
  have h1 : truncQ (12 : ℚ) = 12 := by simpa using truncQ_int 12
  have h2 : truncQ (18 : ℚ) = 18 := by simpa using truncQ_int 18
  rw [h1, h2]
  norm_num

/-- **C39** fails for `lcm(0,0)`: 0 divided by 0 is not a number. -/
theorem C39_lcm_zero (L : Lib) (o : Op) (ho : Builtin "lcm" .function o) (hist : List Dbl) (rnd fuel : ℕ) :
    evalOp (arith round L) hist rnd fuel o [fin 0, fin 0] = .ok nan := by
  have hid := ho.id (k := 47) (by decide +kernel)
  have t0 : truncQ (0 : ℚ) = 0 := by simp [truncQ]
  have he : (arith round L).euclid fuel (fin 0) (fin 0) = some (fin 0) := by
    rw [euclid_zero]
    · simp [arith_fabs, arith_trunc, toInteger, t0, Dbl.abs]
    · rw [ofInt_zero exact_round]
      simp [arith_fabs, arith_trunc, toInteger, t0, Dbl.abs, Dbl.eq]
  have hm : Dbl.mul round (fin 0) (fin 0) = fin 0 := by
    have := mul_int exact_round (a := 0) (b := 0) (by simp)
    simpa using this
  unfold evalOp
  rw [hid]
  show looped (((arith round L).euclid fuel (fin 0) (fin 0)).map _) = _
  rw [he]
  simp [looped, toInteger, t0, hm, Dbl.abs, Dbl.div]

/-! ## C40 -/

/-- **C40** (partial: `k ≤ n`): `n C k` is the binomial coefficient, provided the integers
that occur are exactly represented. -/
theorem C40_binomial_partial (r : ℚ → Dbl) (L : Lib) (N : ℕ) (hr : ExactTo r N) (o : Op) (ho : Builtin "C" .infix o)
    (hist : List Dbl) (rnd n k : ℕ) (hk : k ≤ n) (hn : 2 * n + 2 ≤ N) (hN : n.choose k * min k (n - k) ≤ N) :
    ∃ m, ∀ fuel, m ≤ fuel → evalOp (arith r L) hist rnd fuel o [fin n, fin k] = .ok (fin (n.choose k)) := by
  refine ⟨n + 2, fun fuel hf => ?_⟩
  have hid := ho.id (k := 9) (by decide +kernel)
  unfold evalOp
  rw [hid]
  show looped ((arith r L).binomial fuel (fin n) (fin k)) = _
  have t (n : ℕ) : (arith r L).fn .fabs ((arith r L).fn .trunc (fin n)) = fin ((n : ℤ) : ℚ) := by
    have := truncQ_int n
    simp only [Int.cast_natCast] at this
    simp [arith_fabs, arith_trunc, toInteger, this, Dbl.abs]
  have h0 : (arith r L).eq (fin ((k : ℤ) : ℚ)) ((arith r L).ofInt 0) = decide ((k : ℤ) = 0) := by
    rw [ofInt_zero hr, zero_int, arith_eq, eq_int]
  have h2 : (arith r L).lt (fin ((n : ℤ) : ℚ)) ((arith r L).mul ((arith r L).ofInt 2) (fin ((k : ℤ) : ℚ))) =
      decide ((n : ℤ) < 2 * k) := by
    have e : (arith r L).ofInt 2 = fin ((2 : ℤ) : ℚ) := by
      rw [arith_ofInt, hr 2]; rw [abs_of_nonneg] <;> omega
    rw [e, arith_mul, mul_int hr (by rw [abs_of_nonneg] <;> omega), arith_lt, lt_int]
  simp only [Arith.binomial, t]
  by_cases hz : k = 0
  · subst hz
    rw [if_pos (by rw [h0]; simp), ofInt_one hr (by omega)]
    simp [looped]
  · rw [if_neg (by rw [h0]; simp [hz])]
    have run : ∀ j : ℕ, j ≤ n → j + 1 ≤ N → n.choose j = n.choose k → n.choose k * j ≤ N →
        (arith r L).binomialLoop (fin ((n : ℤ) : ℚ)) (fin ((j : ℤ) : ℚ)) fuel ((arith r L).ofInt 1)
          ((arith r L).ofInt 1) = some (fin (n.choose k)) := by
      intro j hj hj1 hc hcj
      have := binomialLoop_spec (L := L) hr n j hj (by omega) hj1 (by rw [hc]; exact hcj) fuel 1 (le_refl _)
        (by omega) (by omega)
      rw [hc] at this
      rw [ofInt_one hr (by omega), one_int]
      simpa using this
    by_cases h2k : n < 2 * k
    · rw [if_pos (by rw [h2]; simp; omega), arith_sub, sub_int hr (by rw [abs_of_nonneg] <;> omega),
        ← Nat.cast_sub hk, run (n - k) (by omega) (by omega) (Nat.choose_symm hk) (by
          rwa [Nat.min_eq_right (by omega)] at hN)]
      rfl
    · rw [if_neg (by rw [h2]; simp; omega), run k hk (by omega) rfl (by
          rwa [Nat.min_eq_left (by omega)] at hN)]
      rfl

/-- In exact arithmetic, for all natural numbers `k ≤ n`. -/
theorem C40_exact_partial (L : Lib) (o : Op) (ho : Builtin "C" .infix o) (hist : List Dbl) (rnd n k : ℕ) (hk : k ≤ n) :
    ∃ m, ∀ fuel, m ≤ fuel → evalOp (arith fin L) hist rnd fuel o [fin n, fin k] = .ok (fin (n.choose k)) :=
  C40_binomial_partial fin L (max (2 * n + 2) (n.choose k * min k (n - k))) (exact_fin _) o ho hist rnd n k hk
    (by omega) (by omega)

/-- With doubles, for instance all `k ≤ n ≤ 50`. -/
example : ∀ n ≤ 50, ∀ k ≤ n, 2 * n + 2 ≤ 2 ^ 53 ∧ n.choose k * min k (n - k) ≤ 2 ^ 53 := by
  decide +kernel

/-- **C40** fails for `k > n`: the result is 1 instead of 0. -/
theorem C40_too_large (r : ℚ → Dbl) (L : Lib) (N : ℕ) (hr : ExactTo r N) (o : Op) (ho : Builtin "C" .infix o)
    (hist : List Dbl) (rnd n k : ℕ) (hk : n < k) (hN : 2 * k + 2 ≤ N) :
    n.choose k = 0 ∧
    ∀ fuel, 0 < fuel → evalOp (arith r L) hist rnd fuel o [fin n, fin k] = .ok (fin 1) := by
  refine ⟨Nat.choose_eq_zero_of_lt hk, fun fuel hf => ?_⟩
  have hid := ho.id (k := 9) (by decide +kernel)
  unfold evalOp
  rw [hid]
  show looped ((arith r L).binomial fuel (fin n) (fin k)) = _
  have t (n : ℕ) : (arith r L).fn .fabs ((arith r L).fn .trunc (fin n)) = fin ((n : ℤ) : ℚ) := by
    have := truncQ_int n
    simp only [Int.cast_natCast] at this
    simp [arith_fabs, arith_trunc, toInteger, this, Dbl.abs]
  have h0 : (arith r L).eq (fin ((k : ℤ) : ℚ)) ((arith r L).ofInt 0) = decide ((k : ℤ) = 0) := by
    rw [ofInt_zero hr, zero_int, arith_eq, eq_int]
  have h2 : (arith r L).lt (fin ((n : ℤ) : ℚ)) ((arith r L).mul ((arith r L).ofInt 2) (fin ((k : ℤ) : ℚ))) =
      decide ((n : ℤ) < 2 * k) := by
    have e : (arith r L).ofInt 2 = fin ((2 : ℤ) : ℚ) := by
      rw [arith_ofInt, hr 2]; rw [abs_of_nonneg] <;> omega
    rw [e, arith_mul, mul_int hr (by rw [abs_of_nonneg] <;> omega), arith_lt, lt_int]
  obtain ⟨fuel, rfl⟩ : ∃ f, fuel = f + 1 := ⟨fuel - 1, by omega⟩
  simp only [Arith.binomial, t]
  rw [if_neg (by rw [h0]; simp; omega), if_pos (by rw [h2]; simp; omega), arith_sub,
    sub_int hr (by rw [abs_of_neg] <;> omega), binomialLoop_stop hr (by omega) _ _ (by omega), ofInt_one hr (by omega)]
  rfl

/-! ## C41 -/

/-- **C41**, factorial: `n!` is the factorial if it is exactly represented. -/
theorem C41_factorial (r : ℚ → Dbl) (L : Lib) (N : ℕ) (hr : ExactTo r N) (o : Op) (ho : Builtin "!" .postfix o)
    (hist : List Dbl) (rnd n : ℕ) (hN : n.factorial ≤ N) :
    ∃ m, ∀ fuel, m ≤ fuel → evalOp (arith r L) hist rnd fuel o [fin n] = .ok (fin n.factorial) := by
  refine ⟨n + 1, fun fuel hf => ?_⟩
  have hid := ho.id (k := 13) (by decide +kernel)
  have hn := Nat.self_le_factorial n
  have hp := Nat.factorial_pos n
  have t := truncQ_int n
  simp only [Int.cast_natCast] at t
  have := factorialLoop_spec (L := L) hr fuel n 1 (by omega) (by omega) (by omega) (by omega)
  unfold evalOp
  rw [hid]
  show looped ((arith r L).factorial fuel (fin n)) = _
  have e : (arith r L).factorial fuel (fin n) =
      (arith r L).factorialLoop fuel ((arith r L).fn .trunc (fin n)) ((arith r L).ofInt 1) := rfl
  rw [e, ofInt_one hr (by omega), arith_trunc, toInteger, t]
  simp only [Nat.cast_one, Int.cast_one, Nat.mul_one] at this
  rw [this]
  simp [looped]

/-- In exact arithmetic, for all natural numbers. -/
theorem C41_factorial_exact (L : Lib) (o : Op) (ho : Builtin "!" .postfix o) (hist : List Dbl) (rnd n : ℕ) :
    ∃ m, ∀ fuel, m ≤ fuel → evalOp (arith fin L) hist rnd fuel o [fin n] = .ok (fin n.factorial) :=
  C41_factorial fin L n.factorial (exact_fin _) o ho hist rnd n (le_refl _)

/-- With doubles, for instance up to 18!. -/
example : ∀ n ≤ 18, n.factorial ≤ 2 ^ 53 := by decide +kernel

/-- Fibonacci numbers for all integers: `F(-n) = (-1)^(n+1) F(n)`. -/
def fibZ (n : ℤ) : ℤ := if 0 ≤ n then Nat.fib n.natAbs else if n % 2 = 0 then -Nat.fib n.natAbs else Nat.fib n.natAbs

/-- These are the numbers with `F(n+2) = F(n+1) + F(n)` for all integers. -/
theorem fibZ_rec (n : ℤ) : fibZ 0 = 0 ∧ fibZ 1 = 1 ∧ fibZ (n + 2) = fibZ (n + 1) + fibZ n := by
  refine ⟨by decide, by decide, ?_⟩
  rcases lt_trichotomy n (-1) with h | h | h
  · obtain ⟨k, rfl⟩ : ∃ k : ℕ, n = -(k : ℤ) - 2 := ⟨(-n - 2).toNat, by omega⟩
    have e1 : (-(k : ℤ) - 2 + 2).natAbs = k := by omega
    have e2 : (-(k : ℤ) - 2 + 1).natAbs = k + 1 := by omega
    have e3 : (-(k : ℤ) - 2).natAbs = k + 2 := by omega
    unfold fibZ
    rw [e1, e2, e3, Nat.fib_add_two]
    rcases Nat.eq_zero_or_pos k with rfl | hk
    · simp
    · have h1 : ¬ 0 ≤ -(k : ℤ) - 2 + 2 := by omega
      have h2 : ¬ 0 ≤ -(k : ℤ) - 2 + 1 := by omega
      have h3 : ¬ 0 ≤ -(k : ℤ) - 2 := by omega
      rw [if_neg h1, if_neg h2, if_neg h3]
      rcases Nat.even_or_odd' k with ⟨j, rfl | rfl⟩
      · have m1 : (-((2 * j : ℕ) : ℤ) - 2 + 2) % 2 = 0 := by omega
        have m2 : ¬ (-((2 * j : ℕ) : ℤ) - 2 + 1) % 2 = 0 := by omega
        have m3 : (-((2 * j : ℕ) : ℤ) - 2) % 2 = 0 := by omega
        rw [if_pos m1, if_neg m2, if_pos m3]
        push_cast; ring
      · have m1 : ¬ (-((2 * j + 1 : ℕ) : ℤ) - 2 + 2) % 2 = 0 := by omega
        have m2 : (-((2 * j + 1 : ℕ) : ℤ) - 2 + 1) % 2 = 0 := by omega
        have m3 : ¬ (-((2 * j + 1 : ℕ) : ℤ) - 2) % 2 = 0 := by omega
        rw [if_neg m1, if_pos m2, if_neg m3]
        push_cast; ring
  · subst h; decide
  · obtain ⟨k, rfl⟩ : ∃ k : ℕ, n = k := ⟨n.toNat, by omega⟩
    have e1 : ((k : ℤ) + 2).natAbs = k + 2 := by omega
    have e2 : ((k : ℤ) + 1).natAbs = k + 1 := by omega
    have e3 : (k : ℤ).natAbs = k := by omega
    unfold fibZ
    rw [e1, e2, e3, if_pos (by omega), if_pos (by omega), if_pos (by omega), Nat.fib_add_two]
    push_cast; ring

/-- **C41**, Fibonacci (partial: -92 to 92): `fib(n)` is the number F(n), rounded to a
double. -/
theorem C41_fib_partial (r : ℚ → Dbl) (L : Lib) (o : Op) (ho : Builtin "fib" .function o)
    (hist : List Dbl) (rnd fuel : ℕ) (n : ℤ) (hn : |n| ≤ 92) :
    evalOp (arith r L) hist rnd fuel o [fin n] = .ok (r (fibZ n)) := by
  have hid := ho.id (k := 49) (by decide +kernel)
  have hb : -92 ≤ n ∧ n ≤ 92 := abs_le.mp hn
  have hl : (arith r L).toLong (fin n) = some n := by
    show toRange (-longMax - 1) longMax (fin n) = some n
    simp only [toRange, truncQ_int]
    rw [if_pos]
    unfold longMax
    omega
  have hf := fibLong_spec n.natAbs (by omega)
  unfold evalOp
  rw [hid]
  show defined ((arith r L).fibonacci (fin n)) = _
  unfold Arith.fibonacci fibZ
  rw [hl]
  simp only [hf]
  rw [if_neg (by unfold longMax; omega : ¬ n = -longMax - 1)]
  by_cases h0 : n < 0
  · rw [if_pos h0, if_neg (by omega : ¬ 0 ≤ n)]
    split <;> simp [defined, arith_ofInt]
  · rw [if_neg h0, if_pos (by omega : 0 ≤ n)]
    simp [defined, arith_ofInt]

/-- **C41** fails beyond: the sum of long values overflows, which is undefined. -/
theorem C41_fib_overflow (r : ℚ → Dbl) (L : Lib) (o : Op) (ho : Builtin "fib" .function o)
    (hist : List Dbl) (rnd fuel : ℕ) (n : ℤ) (hn : 93 ≤ |n|) :
    evalOp (arith r L) hist rnd fuel o [fin n] = .error .ub := by
  have hid := ho.id (k := 49) (by decide +kernel)
  unfold evalOp
  rw [hid]
  show defined ((arith r L).fibonacci (fin n)) = _
  have hf : fibLong n.natAbs = none := fibLong_none _ (by have := Int.natCast_natAbs n; omega)
  unfold Arith.fibonacci
  cases hl : (arith r L).toLong (fin n) with
  | none => rfl
  | some l =>
    have : l = n := by
      have hl : toRange (-longMax - 1) longMax (fin n) = some l := hl
      simp only [toRange, truncQ_int] at hl
      split at hl
      · simpa using hl.symm
      · cases hl
    subst this
    simp only [hf]
    split
    · split
      · rfl
      · split <;> rfl
    · rfl

/-- With doubles, the value is exact up to F(78). -/
theorem C41_fib_double (L : Lib) (o : Op) (ho : Builtin "fib" .function o) (hist : List Dbl) (rnd fuel : ℕ) (n : ℤ)
    (hn : |n| ≤ 78) : evalOp (arith round L) hist rnd fuel o [fin n] = .ok (fin (fibZ n)) := by
  rw [C41_fib_partial round L o ho hist rnd fuel n (by omega), exact_round]
  have h78 : Nat.fib 78 = 8944394323791464 := by decide +kernel
  have hm : Nat.fib n.natAbs ≤ Nat.fib 78 := Nat.fib_mono (by have := Int.natCast_natAbs n; omega)
  have : |fibZ n| = Nat.fib n.natAbs := by
    unfold fibZ
    split
    · simp
    · split <;> simp
  rw [this]
  push_cast
  omega

/-! ## C38 -/

/-- **C38**, `@`: `@k` is the k-th most recent result, counted from 0; numbers beyond the
recorded results and negative numbers are an error.  (`hist` has less than 2^63
entries, as a vector of doubles must.) -/
theorem C38_at (r : ℚ → Dbl) (L : Lib) (o : Op) (ho : Builtin "@" .prefix o) (hist : List Dbl) (hh : hist.length < 2 ^ 63)
    (rnd fuel : ℕ) (k : ℤ) (hk : -2147483648 ≤ k ∧ k ≤ 2147483647) :
    evalOp (arith r L) hist rnd fuel o [fin k] =
      if h : 0 ≤ k ∧ k.toNat < hist.length then .ok (hist.reverse[k.toNat]'(by simpa using h.2))
      else .error (.code .historyNotSet) := by
  have hid := ho.id (k := 1) (by decide +kernel)
  have hl : (arith r L).toInt (fin k) = some k := by
    show toRange (-2147483648) 2147483647 (fin k) = some k
    simp only [toRange, truncQ_int]
    rw [if_pos hk]
  unfold evalOp
  rw [hid]
  simp only [arg1, hl]
  have hget (i : ℕ) : historyGet hist i = hist.reverse[i]? := by
    unfold historyGet
    split
    · rename_i hi; rw [List.getElem?_eq_none]; simpa using hi
    · rename_i hi; rw [List.getElem?_reverse (by omega)]
  rw [hget]
  split
  · rename_i h
    have : historyIndex k = k.toNat := by
      unfold historyIndex sizeMax
      rw [Int.emod_eq_of_lt] <;> omega
    rw [this, List.getElem?_eq_getElem (by simpa using h.2)]
    rfl
  · rename_i h
    rw [List.getElem?_eq_none]
    · rfl
    · rw [List.length_reverse]
      by_cases h0 : 0 ≤ k
      · have : historyIndex k = k.toNat := by
          unfold historyIndex sizeMax
          rw [Int.emod_eq_of_lt] <;> omega
        rw [this]
        simp only [not_and, Nat.not_lt] at h
        exact h h0
      · have : historyIndex k = (k + 2 ^ 64).toNat := by
          unfold historyIndex sizeMax
          congr 1
          have e : k % (((2 ^ 64 - 1 : ℕ) : ℤ) + 1) = (k + 2 ^ 64) % (((2 ^ 64 - 1 : ℕ) : ℤ) + 1) := by norm_num
          rw [e, Int.emod_eq_of_lt] <;> omega
        rw [this]
        omega

/-- **C38**, `ans`: the most recent result, an error if there is none. -/
theorem C38_ans (r : ℚ → Dbl) (L : Lib) (o : Op) (ho : Builtin "ans" .function o) (hist : List Dbl) (rnd fuel : ℕ) :
    evalOp (arith r L) hist rnd fuel o [] =
      match hist.getLast? with
      | some v => .ok v
      | none => .error (.code .historyNotSet) := by
  have hid := ho.id (k := 57) (by decide +kernel)
  unfold evalOp
  rw [hid]
  show fromHistory (historyGet hist 0) = _
  have : historyGet hist 0 = hist.getLast? := by
    unfold historyGet
    cases hist with
    | nil => rfl
    | cons a l => simp [List.getLast?_eq_getElem?]
  rw [this]
  cases hist.getLast? <;> rfl

/-- **C38** fails for indices that do not fit into an int: the conversion is undefined. -/
theorem C38_conversion (r : ℚ → Dbl) (L : Lib) (o : Op) (ho : Builtin "@" .prefix o) (hist : List Dbl)
    (rnd fuel : ℕ) (k : ℤ) (hk : k < -2147483648 ∨ 2147483647 < k) :
    evalOp (arith r L) hist rnd fuel o [fin k] = .error .ub := by
  have hid := ho.id (k := 1) (by decide +kernel)
  have hl : (arith r L).toInt (fin k) = none := by
    show toRange (-2147483648) 2147483647 (fin k) = none
    simp only [toRange, truncQ_int]
    rw [if_neg (by omega)]
  unfold evalOp
  rw [hid]
  simp only [arg1, hl]

/-! ## C42 -/

/-- **C42** (partial), operators: no operator other than `gcd`, `lcm`, `C` and `!` is
evaluated by an unbounded loop, whatever the arithmetic and the arguments are. -/
theorem C42_other_operators_partial {V : Type} (A : Arith V) (hist : List V) (rnd fuel : ℕ) (o : Op) (args : List V)
    (ho : o.id ≠ 9 ∧ o.id ≠ 13 ∧ o.id ≠ 46 ∧ o.id ≠ 47) : evalOp A hist rnd fuel o args ≠ .error .hang := by
  obtain ⟨h1, h2, h3, h4⟩ := ho
  unfold evalOp
  split <;> (try contradiction) <;> simp only [arg1, arg2, defined, fromHistory, ne_eq] <;>
    (repeat' split) <;> simp

/-- These four are the ones with the numbers excluded above. -/
example (o : Op) (h : Builtin "gcd" .function o ∨ Builtin "lcm" .function o ∨ Builtin "C" .infix o ∨
    Builtin "!" .postfix o) : o.id = 46 ∨ o.id = 47 ∨ o.id = 9 ∨ o.id = 13 := by
  rcases h with h | h | h | h
  · exact .inl (h.id (by decide +kernel))
  · exact .inr (.inl (h.id (by decide +kernel)))
  · exact .inr (.inr (.inl (h.id (by decide +kernel))))
  · exact .inr (.inr (.inr (h.id (by decide +kernel))))

/-- A result does not depend on the bound of the loops: running longer gives the same. -/
theorem C42_determined {V : Type} (A : Arith V) (hist : List V) (rnd f f' : ℕ) (hf : f ≤ f') (o : Op) (args : List V)
    (h : evalOp A hist rnd f o args ≠ .error .hang) : evalOp A hist rnd f' o args = evalOp A hist rnd f o args := by
  have loops {x y : Option V} (hm : ∀ v, x = some v → y = some v) (hx : looped x ≠ .error .hang) :
      looped y = looped x := by
    cases hx' : x with
    | none => rw [hx'] at hx; exact absurd rfl hx
    | some v => rw [hm v hx']
  unfold evalOp at h ⊢
  split <;> try rfl
  · rename_i ho
    rw [ho] at h
    match args, h with
    | [], _ => rfl
    | [_], _ => rfl
    | a :: b :: _, h => exact loops (fun v => binomial_mono A hf) h
  · rename_i ho
    rw [ho] at h
    match args, h with
    | [], _ => rfl
    | a :: _, h => exact loops (fun v => factorial_mono A hf) h
  · rename_i ho
    rw [ho] at h
    match args, h with
    | [], _ => rfl
    | [_], _ => rfl
    | a :: b :: _, h => exact loops (fun v => euclid_mono A hf) h
  · rename_i ho
    rw [ho] at h
    match args, h with
    | [], _ => rfl
    | [_], _ => rfl
    | a :: b :: _, h =>
      refine loops (fun v hv => ?_) h
      simp only [Option.map_eq_some_iff] at hv ⊢
      obtain ⟨g, hg, hv⟩ := hv
      exact ⟨g, euclid_mono A hf hg, hv⟩

/-- **C42** (partial): on finite arguments whose integer parts are less than the bound up
to which integers are exact, every operator is evaluated in finitely many steps. -/
theorem C42_operators_partial (r : ℚ → Dbl) (L : Lib) (N : ℕ) (hr : ExactTo r N) (hist : List Dbl) (rnd : ℕ) (o : Op)
    (args : List Dbl) (ha : ∀ v ∈ args, ∃ x, v = fin x ∧ |truncQ x| < N) :
    ∃ m, ∀ fuel, m ≤ fuel → evalOp (arith r L) hist rnd fuel o args ≠ .error .hang := by
  have ends {x : Option Dbl} (hx : ∃ v, x = some v) : looped x ≠ .error .hang := by
    obtain ⟨v, rfl⟩ := hx
    simp [looped]
  by_cases hop : o.id ≠ 9 ∧ o.id ≠ 13 ∧ o.id ≠ 46 ∧ o.id ≠ 47
  · exact ⟨0, fun fuel _ => C42_other_operators_partial _ hist rnd fuel o args hop⟩
  have hop : o.id = 9 ∨ o.id = 13 ∨ o.id = 46 ∨ o.id = 47 := by omega
  rcases hop with ho | ho | ho | ho <;> simp only [evalOp, ho]
  · match args, ha with
    | [], _ => exact ⟨0, fun _ _ => by simp [arg2]⟩
    | [_], _ => exact ⟨0, fun _ _ => by simp [arg2]⟩
    | a :: b :: _, ha =>
      obtain ⟨x, rfl, hx⟩ := ha a (by simp)
      obtain ⟨y, rfl, hy⟩ := ha b (by simp)
      exact ⟨(truncQ x).natAbs + (truncQ y).natAbs + 2, fun fuel hf => ends (binomial_ends hr x y hx hy fuel (by omega))⟩
  · match args, ha with
    | [], _ => exact ⟨0, fun _ _ => by simp [arg1]⟩
    | a :: _, ha =>
      obtain ⟨x, rfl, hx⟩ := ha a (by simp)
      exact ⟨(truncQ x).natAbs + 3, fun fuel hf => ends (factorial_ends hr x hx fuel (by omega))⟩
  · match args, ha with
    | [], _ => exact ⟨0, fun _ _ => by simp [arg2]⟩
    | [_], _ => exact ⟨0, fun _ _ => by simp [arg2]⟩
    | a :: b :: _, ha =>
      obtain ⟨x, rfl, hx⟩ := ha a (by simp)
      obtain ⟨y, rfl, hy⟩ := ha b (by simp)
      exact ⟨(truncQ x).natAbs + (truncQ y).natAbs + 2, fun fuel hf =>
        ends ⟨_, euclid_spec hr x y (by omega) (by omega) fuel (by omega)⟩⟩
  · match args, ha with
    | [], _ => exact ⟨0, fun _ _ => by simp [arg2]⟩
    | [_], _ => exact ⟨0, fun _ _ => by simp [arg2]⟩
    | a :: b :: _, ha =>
      obtain ⟨x, rfl, hx⟩ := ha a (by simp)
      obtain ⟨y, rfl, hy⟩ := ha b (by simp)
      refine ⟨(truncQ x).natAbs + (truncQ y).natAbs + 2, fun fuel hf => ends ?_⟩
      rw [euclid_spec hr x y (by omega) (by omega) fuel (by omega)]
      exact ⟨_, rfl⟩

/-- In exact arithmetic: on all finite arguments. -/
theorem C42_exact_partial (L : Lib) (hist : List Dbl) (rnd : ℕ) (o : Op)
    (args : List Dbl) (ha : ∀ v ∈ args, ∃ x, v = fin x) :
    ∃ m, ∀ fuel, m ≤ fuel → evalOp (arith fin L) hist rnd fuel o args ≠ .error .hang := by
  have key : ∃ N : ℕ, ∀ v ∈ args, ∃ x, v = fin x ∧ |truncQ x| < N := by
    induction args with
    | nil => exact ⟨0, by simp⟩
    | cons v l ih =>
      obtain ⟨N, hN⟩ := ih (fun w hw => ha w (List.mem_cons_of_mem _ hw))
      obtain ⟨x, rfl⟩ := ha v (List.mem_cons_self ..)
      refine ⟨N + (truncQ x).natAbs + 1, fun w hw => ?_⟩
      have := Int.natCast_natAbs (truncQ x)
      rcases List.mem_cons.mp hw with rfl | hw
      · exact ⟨x, rfl, by omega⟩
      · obtain ⟨y, rfl, hy⟩ := hN w hw
        exact ⟨y, rfl, by omega⟩
  obtain ⟨N, hN⟩ := key
  exact C42_operators_partial fin L N (exact_fin N) hist rnd o args hN

/-- **C42** (partial), expressions: the evaluation of an expression without these four
operators does not run forever. -/
theorem C42_expressions_partial {V : Type} (A : Arith V) (hist : List V) (rnd : ℕ) (fuel : ℕ) (t : Tree V)
    (ht : TreeProps.AllOps (fun o => o.id ≠ 9 ∧ o.id ≠ 13 ∧ o.id ≠ 46 ∧ o.id ≠ 47) t) (p q : Path) :
    treeReduce (evalOp A hist rnd fuel) (.code .variableEncountered) t p ≠ .error (.hang, q) := by
  induction t using Tree.induct generalizing p with
  | hc v i => simp [treeReduce]
  | hv n x i => simp [treeReduce]
  | ho o cs i ih =>
    cases ht with
    | op h1 h2 =>
      intro h
      simp only [treeReduce] at h
      split at h
      · rename_i h3
        cases h
        obtain ⟨c, hc, q', hq⟩ := reduceArgs_error h3
        exact ih c hc (h2 c hc) q' hq
      · split at h
        · rename_i h4
          simp only [Except.error.injEq, Prod.mk.injEq] at h
          rw [h.1] at h4
          exact C42_other_operators_partial A hist rnd fuel o _ h1 h4
        · cases h

/-- **C42** fails: `gcd(1, 100000000000000000)` never ends, because in doubles
10^17 - 1 is 10^17. -/
theorem C42_gcd_hangs (L : Lib) (o : Op) (ho : Builtin "gcd" .function o) (hist : List Dbl) (rnd fuel : ℕ) :
    evalOp (arith round L) hist rnd fuel o [fin 1, fin (10 ^ 17 : ℤ)] = .error .hang := by
  have hid := ho.id (k := 46) (by decide +kernel)
  unfold evalOp
  rw [hid]
  show looped ((arith round L).euclid fuel (fin 1) (fin (10 ^ 17 : ℤ))) = _
  have e (n : ℕ) : (arith round L).fn .fabs ((arith round L).fn .trunc (fin ((n : ℤ) : ℚ))) = fin ((n : ℤ) : ℚ) := by
    rw [arith_fabs, arith_trunc, abs_trunc, truncQ_int]; rfl
  have h1 := e 1
  have h2 := e (10 ^ 17)
  push_cast at h1 h2
  rw [euclid_loop]
  · push_cast
    rw [h1, h2]
    have := euclidLoop_hang (L := L) fuel
    push_cast at this
    rw [this]; rfl
  · rw [h1, ofInt_zero exact_round, arith_eq, one_int, zero_int, eq_int]; decide

/-- **C42** fails: `100000000000000000!` never ends. -/
theorem C42_factorial_hangs (L : Lib) (o : Op) (ho : Builtin "!" .postfix o) (hist : List Dbl) (rnd fuel : ℕ) :
    evalOp (arith round L) hist rnd fuel o [fin (10 ^ 17 : ℤ)] = .error .hang := by
  have hid := ho.id (k := 13) (by decide +kernel)
  unfold evalOp
  rw [hid]
  show looped ((arith round L).factorialLoop fuel (toInteger truncQ (fin (10 ^ 17 : ℤ))) _) = _
  rw [toInteger, truncQ_int, factorialLoop_hang]
  rfl

/-- **C42** fails: `gcd(max(), 1)` never ends; `max()` is an infinity. -/
theorem C42_gcd_infinity_hangs (r : ℚ → Dbl) (L : Lib) (N : ℕ) (hr : ExactTo r N) (hN : 1 ≤ N) (o o' : Op)
    (ho : Builtin "gcd" .function o) (ho' : Builtin "max" .function o') (hist : List Dbl) (rnd fuel : ℕ) :
    ∃ v, evalOp (arith r L) hist rnd fuel o' [] = .ok v ∧
      evalOp (arith r L) hist rnd fuel o [v, fin 1] = .error .hang := by
  have hid := ho.id (k := 46) (by decide +kernel)
  have hid' := ho'.id (k := 34) (by decide +kernel)
  refine ⟨inf true, ?_, ?_⟩
  · unfold evalOp
    rw [hid']
    rfl
  · unfold evalOp
    rw [hid]
    show looped ((arith r L).euclid fuel (inf true) (fin 1)) = _
    have h1 : (arith r L).fn .fabs ((arith r L).fn .trunc (fin 1)) = fin 1 := by
      rw [arith_fabs, arith_trunc, abs_trunc]
      have := truncQ_int 1
      push_cast at this
      rw [this]; simp
    rw [euclid_loop, h1]
    · have := euclidLoop_inf (L := L) hr true fuel
      rw [show (arith r L).fn .fabs ((arith r L).fn .trunc (inf true)) = Dbl.abs (inf true) from rfl, this]
      rfl
    · rw [ofInt_zero hr]; rfl

/-- The hypotheses of `C42_operators_partial` hold for `7 C 3.5` with doubles. -/
example : ∀ v ∈ [fin 7, fin (7 / 2)], ∃ x, v = fin x ∧ |truncQ x| < (2 ^ 53 : ℕ) := by
  have h1 : truncQ 7 = 7 := by simp [truncQ]
  have h2 : truncQ (7 / 2) = 3 := by
    unfold truncQ; rw [if_pos (by norm_num), Int.floor_eq_iff]; norm_num
  intro v hv
  simp only [List.mem_cons, List.not_mem_nil, or_false] at hv
  rcases hv with rfl | rfl
  · exact ⟨_, rfl, by rw [h1]; norm_num⟩
  · exact ⟨_, rfl, by rw [h2]; norm_num⟩

/-! ## C64 -/

/-- **C64** (partial): `x^y` is what the C library computes for positive `x`, for `x = 0` and
positive `y`, and for negative `x` and `y ≥ 1`. -/
theorem C64_power_partial (r : ℚ → Dbl) (L : Lib) (N : ℕ) (hr : ExactTo r N) (hN : 1 ≤ N) (o : Op)
    (ho : Builtin "^" .infix o) (hist : List Dbl) (rnd fuel : ℕ) (x y : ℚ)
    (h : 0 < x ∨ (x = 0 ∧ 0 < y) ∨ (x < 0 ∧ 1 ≤ y)) :
    evalOp (arith r L) hist rnd fuel o [fin x, fin y] = .ok (L.pow (fin x) (fin y)) := by
  have hid := ho.id (k := 8) (by decide +kernel)
  unfold evalOp
  rw [hid]
  show (if _ then _ else if _ then _ else Except.ok (L.pow (fin x) (fin y))) = _
  rw [ofInt_zero hr, ofInt_one hr hN, arith_eq, arith_le, arith_lt]
  have e0 (a b : ℚ) : Dbl.eq (fin a) (fin b) = decide (a = b) := by
    rw [Bool.eq_iff_iff]; simp [Dbl.eq]
  have e1 (a b : ℚ) : Dbl.lt (fin a) (fin b) = decide (a < b) := by simp [Dbl.lt]
  simp only [Dbl.le, e0, e1]
  rw [if_neg, if_neg]
  · simp only [Bool.and_eq_true, decide_eq_true_eq]; rintro ⟨h1, h2⟩
    rcases h with h | h | h
    · linarith
    · linarith [h.1]
    · linarith [h.2]
  · simp only [Bool.and_eq_true, Bool.or_eq_true, decide_eq_true_eq]; rintro ⟨h1, h2⟩
    rcases h with h | h | h
    · linarith
    · rcases h2 with h2 | h2 <;> linarith [h.2]
    · linarith [h.1]

/-- **C64** fails: `(-2)^(-1)` and `(-2)^0`, which are -1/2 and 1, are reported as not
real, and `0^0` as a division by zero. -/
theorem C64_power_errors (r : ℚ → Dbl) (L : Lib) (N : ℕ) (hr : ExactTo r N) (hN : 1 ≤ N) (o : Op)
    (ho : Builtin "^" .infix o) (hist : List Dbl) (rnd fuel : ℕ) :
    evalOp (arith r L) hist rnd fuel o [fin (-2), fin (-1)] = .error (.code .complexSolution) ∧
    evalOp (arith r L) hist rnd fuel o [fin (-2), fin 0] = .error (.code .complexSolution) ∧
    evalOp (arith r L) hist rnd fuel o [fin 0, fin 0] = .error (.code .divisionByZero) := by
  have hid := ho.id (k := 8) (by decide +kernel)
  unfold evalOp
  rw [hid]
  simp only [arg2, ofInt_zero hr, ofInt_one hr hN, arith_eq, arith_le, arith_lt]
  refine ⟨rfl, rfl, rfl⟩

/-! ## C65 -/

/-- **C65**, maximum: of finite numbers, at least one, `max` is one of them, and none is
greater. -/
theorem C65_max (r : ℚ → Dbl) (L : Lib) (o : Op) (ho : Builtin "max" .function o) (hist : List Dbl) (rnd fuel : ℕ)
    (qs : List ℚ) (hq : qs ≠ []) :
    ∃ m ∈ qs, (∀ q ∈ qs, q ≤ m) ∧ evalOp (arith r L) hist rnd fuel o (qs.map fin) = .ok (fin m) := by
  have hid := ho.id (k := 34) (by decide +kernel)
  have step : ∀ (l : List ℚ) (m : ℚ), ∃ k ∈ m :: l, (∀ q ∈ m :: l, q ≤ k) ∧
      (l.map fin).foldl (fun res a => if Dbl.lt res a = true then a else res) (fin m) = fin k := by
    intro l
    induction l with
    | nil => intro m; exact ⟨m, by simp, by simp, rfl⟩
    | cons a l ih =>
      intro m
      simp only [List.map_cons, List.foldl_cons]
      by_cases h : m < a
      · obtain ⟨k, h1, h2, h3⟩ := ih a
        refine ⟨k, List.mem_cons_of_mem _ h1, ?_, ?_⟩
        · intro q hq
          rcases List.mem_cons.mp hq with rfl | hq
          · exact le_trans (le_of_lt h) (h2 a (by simp))
          · exact h2 q hq
        · rw [if_pos (by simpa [Dbl.lt] using h), h3]
      · obtain ⟨k, h1, h2, h3⟩ := ih m
        refine ⟨k, ?_, ?_, ?_⟩
        · rcases List.mem_cons.mp h1 with rfl | h1
          · simp
          · simp [h1]
        · intro q hq
          simp only [List.mem_cons] at hq
          rcases hq with rfl | rfl | hq
          · exact h2 _ (by simp)
          · exact le_trans (not_lt.mp h) (h2 _ (by simp))
          · exact h2 q (by simp [hq])
        · rw [if_neg (by simpa [Dbl.lt] using h), h3]
  unfold evalOp
  rw [hid]
  obtain ⟨a, l, rfl⟩ := List.exists_cons_of_ne_nil hq
  obtain ⟨k, h1, h2, h3⟩ := step l a
  refine ⟨k, h1, h2, ?_⟩
  show Except.ok (((a :: l).map fin).foldl _ (inf true)) = _
  rw [List.map_cons, List.foldl_cons]
  exact congrArg Except.ok h3

/-- **C65**, minimum. -/
theorem C65_min (r : ℚ → Dbl) (L : Lib) (o : Op) (ho : Builtin "min" .function o) (hist : List Dbl) (rnd fuel : ℕ)
    (qs : List ℚ) (hq : qs ≠ []) :
    ∃ m ∈ qs, (∀ q ∈ qs, m ≤ q) ∧ evalOp (arith r L) hist rnd fuel o (qs.map fin) = .ok (fin m) := by
  have hid := ho.id (k := 35) (by decide +kernel)
  have step : ∀ (l : List ℚ) (m : ℚ), ∃ k ∈ m :: l, (∀ q ∈ m :: l, k ≤ q) ∧
      (l.map fin).foldl (fun res a => if Dbl.lt a res = true then a else res) (fin m) = fin k := by
    intro l
    induction l with
    | nil => intro m; exact ⟨m, by simp, by simp, rfl⟩
    | cons a l ih =>
      intro m
      simp only [List.map_cons, List.foldl_cons]
      by_cases h : a < m
      · obtain ⟨k, h1, h2, h3⟩ := ih a
        refine ⟨k, List.mem_cons_of_mem _ h1, ?_, ?_⟩
        · intro q hq
          rcases List.mem_cons.mp hq with rfl | hq
          · exact le_trans (h2 a (by simp)) (le_of_lt h)
          · exact h2 q hq
        · rw [if_pos (by simpa [Dbl.lt] using h), h3]
      · obtain ⟨k, h1, h2, h3⟩ := ih m
        refine ⟨k, ?_, ?_, ?_⟩
        · rcases List.mem_cons.mp h1 with rfl | h1
          · simp
          · simp [h1]
        · intro q hq
          simp only [List.mem_cons] at hq
          rcases hq with rfl | rfl | hq
          · exact h2 _ (by simp)
          · exact le_trans (h2 _ (by simp)) (not_lt.mp h)
          · exact h2 q (by simp [hq])
        · rw [if_neg (by simpa [Dbl.lt] using h), h3]
  unfold evalOp
  rw [hid]
  obtain ⟨a, l, rfl⟩ := List.exists_cons_of_ne_nil hq
  obtain ⟨k, h1, h2, h3⟩ := step l a
  refine ⟨k, h1, h2, ?_⟩
  show Except.ok (((a :: l).map fin).foldl _ (inf false)) = _
  rw [List.map_cons, List.foldl_cons]
  exact congrArg Except.ok h3

theorem sum_exact (L : Lib) (qs : List ℚ) : (arith fin L).sum (qs.map fin) = fin qs.sum := by
  have : ∀ (l : List ℚ) (s : ℚ), (l.map fin).foldl (arith fin L).add (fin s) = fin (s + l.sum) := by
    intro l
    induction l with
    | nil => simp
    | cons a l ih =>
      intro s
      simp only [List.map_cons, List.foldl_cons, List.sum_cons, ← add_assoc]
      exact ih (s + a)
  show (qs.map fin).foldl (arith fin L).add (fin ((0 : ℤ) : ℚ)) = _
  rw [this]; simp

/-- **C65**, sum, product, mean, variance in exact arithmetic. -/
theorem C65_exact (L : Lib) (hpow : ∀ q : ℚ, L.pow (fin q) (fin 2) = fin (q ^ 2)) (os op oa ov : Op)
    (hs : Builtin "sum" .function os) (hp : Builtin "prod" .function op) (ha : Builtin "avg" .function oa)
    (hv : Builtin "var" .function ov) (hist : List Dbl) (rnd fuel : ℕ) (qs : List ℚ) :
    evalOp (arith fin L) hist rnd fuel os (qs.map fin) = .ok (fin qs.sum) ∧
    evalOp (arith fin L) hist rnd fuel op (qs.map fin) = .ok (fin qs.prod) ∧
    (qs ≠ [] → evalOp (arith fin L) hist rnd fuel oa (qs.map fin) = .ok (fin (qs.sum / qs.length)) ∧
      evalOp (arith fin L) hist rnd fuel ov (qs.map fin) =
        .ok (fin ((qs.map fun q => (q - qs.sum / qs.length) ^ 2).sum / qs.length))) := by
  have hids := hs.id (k := 43) (by decide +kernel)
  have hidp := hp.id (k := 44) (by decide +kernel)
  have hida := ha.id (k := 45) (by decide +kernel)
  have hidv := hv.id (k := 51) (by decide +kernel)
  refine ⟨?_, ?_, fun hq => ?_⟩
  · unfold evalOp
    rw [hids]
    exact congrArg Except.ok (sum_exact L qs)
  · unfold evalOp
    rw [hidp]
    have : ∀ (l : List ℚ) (s : ℚ), (l.map fin).foldl (arith fin L).mul (fin s) = fin (s * l.prod) := by
      intro l
      induction l with
      | nil => simp
      | cons a l ih =>
        intro s
        simp only [List.map_cons, List.foldl_cons, List.prod_cons, ← mul_assoc]
        exact ih (s * a)
    show Except.ok ((qs.map fin).foldl (arith fin L).mul (fin ((1 : ℤ) : ℚ))) = _
    rw [this]; simp
  · have hlen : (qs.length : ℚ) ≠ 0 := by
      have := List.length_pos_of_ne_nil hq
      have : qs.length ≠ 0 := by omega
      exact_mod_cast this
    have hmean : (arith fin L).div (fin qs.sum) (fin qs.length) = fin (qs.sum / qs.length) := by
      simp [Dbl.div, hlen]
    have hofInt : (arith fin L).ofInt (qs.map fin).length = fin qs.length := by
      rw [arith_ofInt]; simp
    constructor
    · unfold evalOp
      rw [hida]
      show Except.ok (if (qs.map fin).isEmpty = true then _ else _) = _
      rw [if_neg (by simpa using hq), sum_exact, hofInt, hmean]
    · unfold evalOp
      rw [hidv]
      show Except.ok ((arith fin L).variance (qs.map fin)) = _
      unfold Arith.variance
      simp only [hofInt, sum_exact, hmean]
      have : ∀ (l : List ℚ) (s : ℚ), (l.map fin).foldl (fun res a => (arith fin L).add res
          ((arith fin L).pow ((arith fin L).sub a (fin (qs.sum / qs.length))) ((arith fin L).ofInt 2))) (fin s) =
          fin (s + (l.map fun q => (q - qs.sum / qs.length) ^ 2).sum) := by
        intro l
        induction l with
        | nil => simp
        | cons a l ih =>
          intro s
          simp only [List.map_cons, List.foldl_cons, List.sum_cons, ← add_assoc]
          have e : (arith fin L).add (fin s) ((arith fin L).pow ((arith fin L).sub (fin a) (fin (qs.sum / qs.length)))
              ((arith fin L).ofInt 2)) = fin (s + (a - qs.sum / qs.length) ^ 2) := by
            have e1 : (arith fin L).sub (fin a) (fin (qs.sum / qs.length)) = fin (a - qs.sum / qs.length) := by
              simp [Dbl.add, Dbl.neg, sub_eq_add_neg]
            have e2 : (arith fin L).ofInt 2 = fin 2 := by rw [arith_ofInt]; norm_num
            have e3 : (arith fin L).pow (fin (a - qs.sum / qs.length)) (fin 2) = fin ((a - qs.sum / qs.length) ^ 2) :=
              hpow _
            rw [e1, e2, e3]; rfl
          rw [e]
          exact ih _
      have h0 : (arith fin L).ofInt 0 = fin 0 := ofInt_zero (exact_fin 0)
      rw [h0, this, zero_add]
      simp [Dbl.div, hlen]

/-- **C65** fails for no arguments, which the operators accept: `max()` is an infinity and
`var()` is not a number. -/
theorem C65_no_arguments (r : ℚ → Dbl) (L : Lib) (N : ℕ) (hr : ExactTo r N) (om ov : Op)
    (hm : Builtin "max" .function om) (hv : Builtin "var" .function ov) (hist : List Dbl) (rnd fuel : ℕ) :
    evalOp (arith r L) hist rnd fuel om [] = .ok (inf true) ∧ evalOp (arith r L) hist rnd fuel ov [] = .ok nan := by
  have hidm := hm.id (k := 34) (by decide +kernel)
  have hidv := hv.id (k := 51) (by decide +kernel)
  constructor
  · unfold evalOp
    rw [hidm]
    rfl
  · unfold evalOp
    rw [hidv]
    show Except.ok ((arith r L).variance []) = _
    have h0 : (arith r L).ofInt 0 = fin 0 := ofInt_zero hr
    have h1 : (arith r L).ofInt (([] : List Dbl).length : ℤ) = fin 0 := h0
    unfold Arith.variance
    simp only [h1, List.foldl_nil, h0]
    simp [Dbl.div]

/-- The operands of `+` and `*` may be exchanged, over all doubles including infinities and
NaN and for every rounding. -/
theorem C65_exchange (r : ℚ → Dbl) (L : Lib) (op om : Op) (hp : Builtin "+" .infix op)
    (hm : Builtin "*" .infix om) (hist : List Dbl) (rnd fuel : ℕ) (a b : Dbl) :
    evalOp (arith r L) hist rnd fuel op [a, b] = evalOp (arith r L) hist rnd fuel op [b, a] ∧
    evalOp (arith r L) hist rnd fuel om [a, b] = evalOp (arith r L) hist rnd fuel om [b, a] := by
  have hidp := hp.id (k := 4) (by decide +kernel)
  have hidm := hm.id (k := 6) (by decide +kernel)
  constructor
  · unfold evalOp
    rw [hidp]
    show Except.ok (Dbl.add r a b) = Except.ok (Dbl.add r b a)
    congr 1
    cases a <;> cases b <;> simp only [Dbl.add, add_comm]
    rename_i s t
    cases s <;> cases t <;> rfl
  · unfold evalOp
    rw [hidm]
    show Except.ok (Dbl.mul r a b) = Except.ok (Dbl.mul r b a)
    congr 1
    cases a <;> cases b <;> simp only [Dbl.mul, mul_comm]
    rename_i s t
    cases s <;> cases t <;> rfl

end Verif.EvaluationProps
