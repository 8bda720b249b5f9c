import Verif.Lemmas.Double
import Verif.Lemmas.Session
import Mathlib.Data.Nat.Choose.Basic
import Mathlib.Data.Nat.Fib.Basic
import Mathlib.Algebra.GCDMonoid.Nat
import Mathlib.Data.Nat.GCD.Basic

/-! # The loops of arith_evaluation.c -/

namespace Verif
open Dbl

section
variable {V : Type} (A : Arith V)

theorem euclidLoop_end {fuel : ℕ} {a b : V} (h : A.eq b (A.ofInt 0) = true) :
    A.euclidLoop (fuel + 1) a b = some a := by simp [Arith.euclidLoop, h]

theorem euclidLoop_left {fuel : ℕ} {a b : V} (h : A.eq b (A.ofInt 0) = false) (h' : A.lt b a = true) :
    A.euclidLoop (fuel + 1) a b = A.euclidLoop fuel (A.sub a b) b := by simp [Arith.euclidLoop, h, h']

theorem euclidLoop_right {fuel : ℕ} {a b : V} (h : A.eq b (A.ofInt 0) = false) (h' : A.lt b a = false) :
    A.euclidLoop (fuel + 1) a b = A.euclidLoop fuel a (A.sub b a) := by simp [Arith.euclidLoop, h, h']

theorem euclid_zero {fuel : ℕ} {a b : V} (h : A.eq (A.fn .fabs (A.fn .trunc a)) (A.ofInt 0) = true) :
    A.euclid fuel a b = some (A.fn .fabs (A.fn .trunc b)) := by simp [Arith.euclid, h]

theorem euclid_loop {fuel : ℕ} {a b : V} (h : A.eq (A.fn .fabs (A.fn .trunc a)) (A.ofInt 0) = false) :
    A.euclid fuel a b = A.euclidLoop fuel (A.fn .fabs (A.fn .trunc a)) (A.fn .fabs (A.fn .trunc b)) := by
  simp [Arith.euclid, h]

theorem binomialLoop_more {n k i res : V} {fuel : ℕ} (h : A.le i k = true) :
    A.binomialLoop n k (fuel + 1) i res =
      A.binomialLoop n k fuel (A.add i (A.ofInt 1)) (A.div (A.mul res (A.add (A.sub n k) i)) i) := by
  simp [Arith.binomialLoop, h]

theorem binomialLoop_end {n k i res : V} {fuel : ℕ} (h : A.le i k = false) :
    A.binomialLoop n k (fuel + 1) i res = some res := by
  simp [Arith.binomialLoop, h]

theorem factorialLoop_more {i res : V} {fuel : ℕ} (h : A.lt (A.ofInt 1) i = true) :
    A.factorialLoop (fuel + 1) i res = A.factorialLoop fuel (A.sub i (A.ofInt 1)) (A.mul res i) := by
  simp [Arith.factorialLoop, h]

theorem factorialLoop_end {i res : V} {fuel : ℕ} (h : A.lt (A.ofInt 1) i = false) :
    A.factorialLoop (fuel + 1) i res = some res := by
  simp [Arith.factorialLoop, h]

end

section
variable {r : ℚ → Dbl} {L : Lib} {N : ℕ}

@[simp] theorem arith_lt : (arith r L).lt = Dbl.lt := rfl
@[simp] theorem arith_le : (arith r L).le = Dbl.le := rfl
@[simp] theorem arith_eq : (arith r L).eq = Dbl.eq := rfl
@[simp] theorem arith_neg : (arith r L).neg = Dbl.neg := rfl
@[simp] theorem arith_add : (arith r L).add = Dbl.add r := rfl
@[simp] theorem arith_mul : (arith r L).mul = Dbl.mul r := rfl
@[simp] theorem arith_div : (arith r L).div = Dbl.div r := rfl
@[simp] theorem arith_sub (a b : Dbl) : (arith r L).sub a b = Dbl.add r a (Dbl.neg b) := rfl
@[simp] theorem arith_trunc : (arith r L).fn .trunc = toInteger truncQ := rfl
@[simp] theorem arith_floor : (arith r L).fn .floor = toInteger Int.floor := rfl
@[simp] theorem arith_fabs : (arith r L).fn .fabs = Dbl.abs := rfl
theorem arith_ofInt (n : ℤ) : (arith r L).ofInt n = r n := rfl

theorem ofInt_zero (h : ExactTo r N) : (arith r L).ofInt 0 = fin 0 := by
  rw [arith_ofInt, h 0 (by simp)]; simp

theorem ofInt_one (h : ExactTo r N) (hN : 1 ≤ N) : (arith r L).ofInt 1 = fin 1 := by
  rw [arith_ofInt, h 1 (by simpa using hN)]; simp

theorem add_int (h : ExactTo r N) {a b : ℤ} (hab : |a + b| ≤ N) : Dbl.add r (fin a) (fin b) = fin (a + b : ℤ) := by
  rw [← h _ hab]; simp [Dbl.add]

theorem sub_int (h : ExactTo r N) {a b : ℤ} (hab : |a - b| ≤ N) :
    Dbl.add r (fin a) (Dbl.neg (fin b)) = fin (a - b : ℤ) := by
  rw [← h _ hab]; simp [Dbl.add, Dbl.neg, sub_eq_add_neg]

theorem mul_int (h : ExactTo r N) {a b : ℤ} (hab : |a * b| ≤ N) : Dbl.mul r (fin a) (fin b) = fin (a * b : ℤ) := by
  rw [← h _ hab]; simp [Dbl.mul]

theorem div_int (h : ExactTo r N) {a b c : ℤ} (hc : |c| ≤ N) (hb : b ≠ 0) (habc : a = c * b) :
    Dbl.div r (fin a) (fin b) = fin c := by
  have hb' : (b : ℚ) ≠ 0 := by exact_mod_cast hb
  rw [← h _ hc, habc]
  simp [Dbl.div, hb, mul_div_assoc, div_self hb']

theorem abs_trunc (x : ℚ) : Dbl.abs (toInteger truncQ (fin x)) = fin ((truncQ x).natAbs : ℤ) := by
  simp [Dbl.abs, toInteger, Int.natCast_natAbs]

theorem natAbs_le {x : ℤ} (h : |x| ≤ N) : x.natAbs ≤ N := by
  have := Int.natCast_natAbs x
  omega

theorem lt_int (a b : ℤ) : Dbl.lt (fin a) (fin b) = decide (a < b) := by
  simp [Dbl.lt]

theorem eq_int (a b : ℤ) : Dbl.eq (fin a) (fin b) = decide (a = b) := by
  rw [Bool.eq_iff_iff]
  simp [Dbl.eq]

theorem le_int (a b : ℤ) : Dbl.le (fin a) (fin b) = decide (a ≤ b) := by
  rw [Dbl.le, lt_int, eq_int, ← Bool.decide_or]
  exact decide_eq_decide.mpr (le_iff_lt_or_eq).symm

theorem zero_int : (fin 0 : Dbl) = fin ((0 : ℤ) : ℚ) := by simp
theorem one_int : (fin 1 : Dbl) = fin ((1 : ℤ) : ℚ) := by simp

theorem euclidLoop_spec (h : ExactTo r N) : ∀ (fuel a b : ℕ), 0 < a → a ≤ N → b ≤ N → a + b < fuel →
    (arith r L).euclidLoop fuel (fin (a : ℤ)) (fin (b : ℤ)) = some (fin (a.gcd b : ℤ)) := by
  intro fuel
  induction fuel with
  | zero => intro a b _ _ _ h; omega
  | succ fuel ih =>
    intro a b ha haN hbN hf
    have he : (arith r L).eq (fin (b : ℤ)) ((arith r L).ofInt 0) = decide ((b : ℤ) = 0) := by
      rw [ofInt_zero h, zero_int, arith_eq, eq_int]
    have hl : (arith r L).lt (fin (b : ℤ)) (fin (a : ℤ)) = decide ((b : ℤ) < a) := by rw [arith_lt, lt_int]
    rcases Nat.eq_zero_or_pos b with rfl | hb
    · rw [euclidLoop_end _ (by rw [he]; simp)]; simp
    · have he' : decide ((b : ℤ) = 0) = false := by simp; omega
      rw [he'] at he
      by_cases hab : b < a
      · rw [euclidLoop_left _ he (by rw [hl]; simpa using hab), arith_sub,
          sub_int h (by rw [abs_of_nonneg] <;> omega)]
        rw [← Nat.cast_sub hab.le, ih _ _ (by omega) (by omega) hbN (by omega)]
        rw [Nat.gcd_sub_self_left hab.le]
      · rw [euclidLoop_right _ he (by rw [hl]; simpa using hab), arith_sub,
          sub_int h (by rw [abs_of_nonneg] <;> omega)]
        rw [← Nat.cast_sub (by omega : a ≤ b), ih _ _ ha haN (by omega) (by omega)]
        rw [Nat.gcd_sub_self_right (by omega)]

theorem euclid_spec (h : ExactTo r N) (x y : ℚ) (hx : |truncQ x| ≤ N) (hy : |truncQ y| ≤ N) (fuel : ℕ)
    (hf : (truncQ x).natAbs + (truncQ y).natAbs < fuel) :
    (arith r L).euclid fuel (fin x) (fin y) = some (fin (Int.gcd (truncQ x) (truncQ y) : ℤ)) := by
  have he : (arith r L).eq ((arith r L).fn .fabs ((arith r L).fn .trunc (fin x))) ((arith r L).ofInt 0) =
      decide (((truncQ x).natAbs : ℤ) = 0) := by
    rw [ofInt_zero h, zero_int, arith_eq, arith_fabs, arith_trunc, abs_trunc, eq_int]
  rcases Nat.eq_zero_or_pos (truncQ x).natAbs with hz | hz
  · rw [euclid_zero _ (by rw [he, hz]; simp), arith_fabs, arith_trunc, abs_trunc]
    rw [Int.natAbs_eq_zero] at hz
    simp [hz]
  · rw [euclid_loop _ (by rw [he]; simp; omega), arith_fabs, arith_trunc, abs_trunc, abs_trunc]
    exact euclidLoop_spec h fuel _ _ hz (natAbs_le hx) (natAbs_le hy) hf

theorem binomialLoop_spec (h : ExactTo r N) (n k : ℕ) (hk : k ≤ n) (hn : n ≤ N) (hkN : k + 1 ≤ N) (hN : n.choose k * k ≤ N) :
    ∀ (fuel i : ℕ), 1 ≤ i → i ≤ k + 1 → k + 1 - i < fuel →
    (arith r L).binomialLoop (fin (n : ℤ)) (fin (k : ℤ)) fuel (fin (i : ℤ))
      (fin (((n - k + (i - 1)).choose (i - 1) : ℕ) : ℤ)) = some (fin ((n.choose k : ℕ) : ℤ)) := by
  intro fuel
  induction fuel with
  | zero => intro i _ _ h; omega
  | succ fuel ih =>
    intro i h1 hi hf
    by_cases hik : i ≤ k
    · have hmono : (n - k + i).choose i * i ≤ n.choose k * k := by
        have e : n = n - k + k := by omega
        refine Nat.mul_le_mul ?_ hik
        conv => rhs; rw [e]
        rw [← Nat.choose_symm_add, ← Nat.choose_symm_add (a := n - k) (b := k)]
        exact Nat.choose_le_choose _ (by omega)
      have hrec : (n - k + (i - 1)).choose (i - 1) * (n - k + i) = (n - k + i).choose i * i := by
        obtain ⟨j, rfl⟩ : ∃ j, i = j + 1 := ⟨i - 1, by omega⟩
        have := Nat.add_one_mul_choose_eq (n - k + j) j
        simp only [Nat.add_sub_cancel]
        rw [← Nat.add_assoc, ← this, Nat.mul_comm]
      have hi0 : (i : ℤ) ≠ 0 := by omega
      have e2 : ((n : ℤ) - k + i) = ((n - k + i : ℕ) : ℤ) := by omega
      have e4 : (((n - k + (i - 1)).choose (i - 1) : ℕ) : ℤ) * ((n - k + i : ℕ) : ℤ) = ((n - k + i).choose i * i : ℕ) := by
        rw [← hrec]; push_cast; ring
      have hc : (n - k + i).choose i ≤ (n - k + i).choose i * i := Nat.le_mul_of_pos_right _ h1
      rw [binomialLoop_more _ (by rw [arith_le, le_int]; simpa using hik)]
      rw [arith_add, arith_mul, arith_div, arith_sub]
      rw [sub_int h (by rw [abs_of_nonneg] <;> omega), add_int h (by rw [abs_of_nonneg] <;> omega), e2,
        mul_int h (by rw [e4, Nat.abs_cast]; omega), e4,
        div_int h (c := ((n - k + i).choose i : ℕ)) (by rw [Nat.abs_cast]; omega) hi0 (by push_cast; ring)]
      rw [ofInt_one h (by omega), one_int, add_int h (by rw [abs_of_nonneg] <;> omega)]
      have := ih (i + 1) (by omega) (by omega) (by omega)
      simp only [Nat.add_sub_cancel] at this
      exact_mod_cast this
    · rw [binomialLoop_end _ (by rw [arith_le, le_int]; simpa using hik)]
      have : i - 1 = k := by omega
      rw [this, Nat.sub_add_cancel hk]

theorem binomialLoop_stop (h : ExactTo r N) (hN : 1 ≤ N) (n : Dbl) (k : ℤ) (hk : k < 1) (fuel : ℕ) (res : Dbl) :
    (arith r L).binomialLoop n (fin k) (fuel + 1) ((arith r L).ofInt 1) res = some res := by
  rw [binomialLoop_end _ (by rw [ofInt_one h hN, one_int, arith_le, le_int]; simpa using hk)]

theorem factorialLoop_spec (h : ExactTo r N) : ∀ (fuel i m : ℕ), i ≤ N → i.factorial * m ≤ N → 0 < m → i < fuel →
    (arith r L).factorialLoop fuel (fin (i : ℤ)) (fin (m : ℤ)) = some (fin ((i.factorial * m : ℕ) : ℤ)) := by
  intro fuel
  induction fuel with
  | zero => intro i m _ _ _ h; omega
  | succ fuel ih =>
    intro i m hi hN hm hf
    have hN1 : 1 ≤ N := by
      have := Nat.mul_pos (Nat.factorial_pos i) hm
      omega
    have hl : (arith r L).lt ((arith r L).ofInt 1) (fin (i : ℤ)) = decide ((1 : ℤ) < i) := by
      rw [ofInt_one h hN1, one_int, arith_lt, lt_int]
    by_cases h1 : 1 < i
    · rw [factorialLoop_more _ (by rw [hl]; simpa using h1)]
      obtain ⟨j, rfl⟩ : ∃ j, i = j + 1 := ⟨i - 1, by omega⟩
      have e2 : j.factorial * (m * (j + 1)) = (j + 1).factorial * m := by
        rw [Nat.factorial_succ]; ring
      have e3 : ((m : ℤ) * ((j + 1 : ℕ) : ℤ)) = ((m * (j + 1) : ℕ) : ℤ) := by push_cast; ring
      have e4 : m * (j + 1) ≤ j.factorial * (m * (j + 1)) := Nat.le_mul_of_pos_left _ (Nat.factorial_pos j)
      have e5 : ((j + 1 : ℕ) : ℤ) - 1 = (j : ℤ) := by push_cast; ring
      rw [ofInt_one h hN1, arith_sub, arith_mul, one_int, sub_int h (by rw [e5, Nat.abs_cast]; omega), e5,
        mul_int h (by rw [e3, Nat.abs_cast]; omega), e3, ih j (m * (j + 1)) (by omega) (by omega) (by positivity) (by omega), e2]
    · rw [factorialLoop_end _ (by rw [hl]; simpa using h1)]
      have : i.factorial = 1 := by
        rcases (by omega : i = 0 ∨ i = 1) with rfl | rfl <;> rfl
      rw [this]; simp

end

theorem fibLong_step (n : ℕ) : fibLong (n + 2) = addLong (fibLong (n + 1)) (fibLong n) := by rw [fibLong]

theorem fibLong_spec : ∀ n, n ≤ 92 → fibLong n = some (Nat.fib n : ℤ) := by
  intro n hn
  have h92 : Nat.fib 92 = 7540113804746346429 := by decide +kernel
  have key : ∀ m, (m ≤ 92 → fibLong m = some (Nat.fib m : ℤ)) ∧
      (m + 1 ≤ 92 → fibLong (m + 1) = some (Nat.fib (m + 1) : ℤ)) := by
    intro m
    induction m with
    | zero => exact ⟨fun _ => rfl, fun _ => rfl⟩
    | succ m ih =>
      refine ⟨ih.2, fun h => ?_⟩
      rw [fibLong_step, ih.2 (by omega), ih.1 (by omega)]
      have e : ((Nat.fib (m + 1) : ℤ) + Nat.fib m) = (Nat.fib (m + 1 + 1) : ℤ) := by
        rw [Nat.fib_add_two]; push_cast; ring
      have : Nat.fib (m + 1 + 1) ≤ Nat.fib 92 := Nat.fib_mono (by omega)
      simp only [addLong, e]
      rw [if_pos]
      unfold longMax
      omega
  exact (key n).1 hn

theorem fibLong_none : ∀ n, 93 ≤ n → fibLong n = none := by
  have h93 : fibLong 93 = none := by
    rw [fibLong_step, fibLong_spec _ (by norm_num), fibLong_spec _ (by norm_num)]
    have h1 : Nat.fib (91 + 1) = 7540113804746346429 := by decide +kernel
    have h2 : Nat.fib 91 = 4660046610375530309 := by decide +kernel
    rw [h1, h2]
    decide
  intro n hn
  obtain ⟨k, rfl⟩ : ∃ k, n = 93 + k := ⟨n - 93, by omega⟩
  clear hn
  induction k with
  | zero => exact h93
  | succ k ih =>
    have e1 : 93 + (k + 1) = 92 + k + 2 := by omega
    have e2 : 92 + k + 1 = 93 + k := by omega
    rw [e1, fibLong_step, e2, ih]
    rfl

end Verif

namespace Verif
open Dbl

section
variable {V : Type} (A : Arith V)

theorem euclidLoop_mono : ∀ (f f' : ℕ) (a b v : V), f ≤ f' → A.euclidLoop f a b = some v →
    A.euclidLoop f' a b = some v
  | 0, _, _, _, _, _, h => by simp [Arith.euclidLoop] at h
  | f + 1, 0, _, _, _, hf, _ => by omega
  | f + 1, f' + 1, a, b, v, hf, h => by
    simp only [Arith.euclidLoop] at h ⊢
    split at h
    · rename_i h1; rw [if_pos h1]; exact h
    · rename_i h1
      rw [if_neg h1]
      split at h
      · rename_i h2; rw [if_pos h2]; exact euclidLoop_mono f f' _ _ _ (by omega) h
      · rename_i h2; rw [if_neg h2]; exact euclidLoop_mono f f' _ _ _ (by omega) h

theorem binomialLoop_mono (n k : V) : ∀ (f f' : ℕ) (i res v : V), f ≤ f' → A.binomialLoop n k f i res = some v →
    A.binomialLoop n k f' i res = some v
  | 0, _, _, _, _, _, h => by simp [Arith.binomialLoop] at h
  | f + 1, 0, _, _, _, hf, _ => by omega
  | f + 1, f' + 1, i, res, v, hf, h => by
    simp only [Arith.binomialLoop] at h ⊢
    split at h
    · rename_i h1; rw [if_pos h1]; exact binomialLoop_mono n k f f' _ _ _ (by omega) h
    · rename_i h1; rw [if_neg h1]; exact h

theorem factorialLoop_mono : ∀ (f f' : ℕ) (i res v : V), f ≤ f' → A.factorialLoop f i res = some v →
    A.factorialLoop f' i res = some v
  | 0, _, _, _, _, _, h => by simp [Arith.factorialLoop] at h
  | f + 1, 0, _, _, _, hf, _ => by omega
  | f + 1, f' + 1, i, res, v, hf, h => by
    simp only [Arith.factorialLoop] at h ⊢
    split at h
    · rename_i h1; rw [if_pos h1]; exact factorialLoop_mono f f' _ _ _ (by omega) h
    · rename_i h1; rw [if_neg h1]; exact h

theorem euclid_mono {f f' : ℕ} (hf : f ≤ f') {a b v : V} (h : A.euclid f a b = some v) : A.euclid f' a b = some v := by
  simp only [Arith.euclid] at h ⊢
  split at h
  · rename_i h1; rw [if_pos h1]; exact h
  · rename_i h1; rw [if_neg h1]; exact euclidLoop_mono A _ _ _ _ _ hf h

theorem binomial_mono {f f' : ℕ} (hf : f ≤ f') {a b v : V} (h : A.binomial f a b = some v) :
    A.binomial f' a b = some v := by
  simp only [Arith.binomial] at h ⊢
  split at h
  · rename_i h1; rw [if_pos h1]; exact h
  · rename_i h1; rw [if_neg h1]; exact binomialLoop_mono A _ _ _ _ _ _ _ hf h

theorem factorial_mono {f f' : ℕ} (hf : f ≤ f') {a v : V} (h : A.factorial f a = some v) :
    A.factorial f' a = some v := by
  simp only [Arith.factorial] at h ⊢
  split at h
  · rename_i h1; rw [if_pos h1]; exact h
  · rename_i h1; rw [if_neg h1]; exact factorialLoop_mono A _ _ _ _ _ hf h

end

section
variable {r : ℚ → Dbl} {L : Lib} {N : ℕ}

theorem binomialLoop_ends (h : ExactTo r N) (n : Dbl) (k : ℤ) (hk : k < N) : ∀ (d : ℕ) (i : ℤ), 1 ≤ i → i ≤ N →
    k - i < d → ∀ fuel res, d < fuel → ∃ v, (arith r L).binomialLoop n (fin k) fuel (fin i) res = some v
  | d, i, h1, hN, hd, 0, _, hf => by omega
  | d, i, h1, hN, hd, fuel + 1, res, hf => by
    have hle : (arith r L).le (fin i) (fin k) = decide (i ≤ k) := by rw [arith_le, le_int]
    by_cases hik : i ≤ k
    · rw [binomialLoop_more _ (by rw [hle]; simpa using hik), ofInt_one h (by omega), one_int, arith_add,
        add_int h (by rw [abs_of_nonneg] <;> omega)]
      obtain ⟨d, rfl⟩ : ∃ e, d = e + 1 := ⟨d - 1, by omega⟩
      exact binomialLoop_ends h n k hk d (i + 1) (by omega) (by omega) (by omega) fuel _ (by omega)
    · exact ⟨res, binomialLoop_end _ (by rw [hle]; simpa using hik)⟩

theorem factorialLoop_ends (h : ExactTo r N) (hN : 1 ≤ N) : ∀ (d : ℕ) (i : ℤ), |i| ≤ N → i < d → ∀ fuel res, d < fuel →
    ∃ v, (arith r L).factorialLoop fuel (fin i) res = some v
  | d, i, hi, hd, 0, _, hf => by omega
  | d, i, hi, hd, fuel + 1, res, hf => by
    have hlt : (arith r L).lt ((arith r L).ofInt 1) (fin i) = decide (1 < i) := by
      rw [ofInt_one h hN, one_int, arith_lt, lt_int]
    by_cases hik : 1 < i
    · rw [abs_of_nonneg (by omega)] at hi
      rw [factorialLoop_more _ (by rw [hlt]; simpa using hik), ofInt_one h hN, one_int, arith_sub,
        sub_int h (by rw [abs_of_nonneg] <;> omega)]
      obtain ⟨d, rfl⟩ : ∃ e, d = e + 1 := ⟨d - 1, by omega⟩
      exact factorialLoop_ends h hN d (i - 1) (by rw [abs_of_nonneg] <;> omega) (by omega) fuel _ (by omega)
    · exact ⟨res, factorialLoop_end _ (by rw [hlt]; simpa using hik)⟩

theorem binomial_ends (h : ExactTo r N) (x y : ℚ) (hx : |truncQ x| < N) (hy : |truncQ y| < N) (fuel : ℕ)
    (hf : (truncQ x).natAbs + (truncQ y).natAbs + 1 < fuel) : ∃ v, (arith r L).binomial fuel (fin x) (fin y) = some v := by
  simp only [Arith.binomial, arith_fabs, arith_trunc, abs_trunc]
  have hx' := Int.natCast_natAbs (truncQ x)
  have hy' := Int.natCast_natAbs (truncQ y)
  have one : (arith r L).ofInt 1 = fin ((1 : ℤ) : ℚ) := by rw [ofInt_one h (by omega), one_int]
  split
  · exact ⟨_, rfl⟩
  · rw [one]
    split
    · rw [arith_sub, sub_int h (by rw [abs_le]; omega)]
      exact binomialLoop_ends h _ _ (by omega) (fuel - 1) 1 (by omega) (by omega) (by omega) _ _ (by omega)
    · exact binomialLoop_ends h _ _ (by omega) (fuel - 1) 1 (by omega) (by omega) (by omega) _ _ (by omega)

theorem factorial_ends (h : ExactTo r N) (x : ℚ) (hx : |truncQ x| < N) (fuel : ℕ)
    (hf : (truncQ x).natAbs + 2 < fuel) : ∃ v, (arith r L).factorial fuel (fin x) = some v := by
  have e : (arith r L).factorial fuel (fin x) =
      (arith r L).factorialLoop fuel ((arith r L).fn .trunc (fin x)) ((arith r L).ofInt 1) := rfl
  have hx' := Int.natCast_natAbs (truncQ x)
  rw [e, arith_trunc]
  have := le_abs_self (truncQ x)
  exact factorialLoop_ends h (by omega) (fuel - 1) _ (by omega) (by omega) _ _ (by omega)

theorem round_big : Dbl.round ((10 ^ 17 - 1 : ℤ) : ℚ) = fin ((10 ^ 17 : ℤ) : ℚ) := by
  have habs : |((10 ^ 17 - 1 : ℤ) : ℚ)| = 10 ^ 17 - 1 := by
    rw [abs_of_nonneg (by norm_num)]; norm_num
  have hlog : Int.log 2 |((10 ^ 17 - 1 : ℤ) : ℚ)| = 56 := by
    rw [habs]
    have h1 : Int.log 2 (10 ^ 17 - 1 : ℚ) < 57 :=
      (Int.lt_zpow_iff_log_lt (by norm_num) (by norm_num)).mp (by norm_num)
    have h2 : 56 ≤ Int.log 2 (10 ^ 17 - 1 : ℚ) :=
      (Int.zpow_le_iff_le_log (by norm_num) (by norm_num)).mp (by norm_num)
    omega
  have hlast : lastBit ((10 ^ 17 - 1 : ℤ) : ℚ) = 4 := by
    unfold lastBit; rw [hlog]; norm_num
  have hfl : ⌊(((10 ^ 17 - 1 : ℤ) : ℚ) / 2 ^ (4 : ℤ))⌋ = 6249999999999999 := by
    rw [Int.floor_eq_iff]; norm_num
  have hhalf : halfEven (((10 ^ 17 - 1 : ℤ) : ℚ) / 2 ^ (4 : ℤ)) = 6250000000000000 := by
    unfold halfEven
    rw [hfl, if_neg (by norm_num), if_pos (by norm_num)]; norm_num
  unfold Dbl.round
  simp only [hlast, hhalf]
  have e : (((6250000000000000 : ℤ) : ℚ) * 2 ^ (4 : ℤ)) = ((10 ^ 17 : ℤ) : ℚ) := by norm_num
  rw [e, if_pos]
  refine lt_of_lt_of_le (b := (2 : ℚ) ^ 57) (by norm_num) (pow_le_pow_right₀ (by norm_num) (by norm_num))

theorem round_ten17 : Dbl.add Dbl.round (fin ((10 ^ 17 : ℤ) : ℚ)) (Dbl.neg (fin 1)) = fin ((10 ^ 17 : ℤ) : ℚ) := by
  have : Dbl.add Dbl.round (fin ((10 ^ 17 : ℤ) : ℚ)) (Dbl.neg (fin 1)) = Dbl.round (((10 ^ 17 : ℤ) : ℚ) + -1) := rfl
  rw [this, ← round_big]
  congr 1
  norm_num

theorem euclidLoop_hang (fuel : ℕ) : (arith round L).euclidLoop fuel (fin 1) (fin ((10 ^ 17 : ℤ) : ℚ)) = none := by
  induction fuel with
  | zero => rfl
  | succ fuel ih =>
    rw [euclidLoop_right, arith_sub, round_ten17, ih]
    · rw [ofInt_zero exact_round, zero_int, arith_eq, eq_int]; decide
    · rw [one_int, arith_lt, lt_int]; decide

theorem factorialLoop_hang (fuel : ℕ) : ∀ res, (arith round L).factorialLoop fuel (fin ((10 ^ 17 : ℤ) : ℚ)) res = none := by
  induction fuel with
  | zero => intro res; rfl
  | succ fuel ih =>
    intro res
    have one : (arith round L).ofInt 1 = fin 1 := ofInt_one exact_round (by norm_num)
    rw [factorialLoop_more, one, arith_sub, round_ten17, ih]
    rw [one, one_int, arith_lt, lt_int]; decide

theorem euclidLoop_inf (h : ExactTo r N) (s : Bool) (fuel : ℕ) :
    (arith r L).euclidLoop fuel (Dbl.abs (inf s)) (fin 1) = none := by
  induction fuel with
  | zero => rfl
  | succ fuel ih =>
    rw [euclidLoop_left]
    · exact ih
    · rw [ofInt_zero h, one_int, zero_int, arith_eq, eq_int]; decide
    · rfl

end
end Verif
