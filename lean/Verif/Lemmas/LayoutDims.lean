import Verif.Spec.Layout
import Mathlib.Algebra.BigOperators.Intervals
import Mathlib.Algebra.Order.BigOperators.Group.Finset

/-!
# Lemmas: dimensions of a table
-/

namespace Verif.LayoutSpec
open Layout

theorem put_eq {α β : Type} [DecidableEq α] (f : α → β) (a : α) (b : β) : put f a b a = b := if_pos rfl

theorem put_ne {α β : Type} [DecidableEq α] (f : α → β) {a x : α} (b : β) (h : x ≠ a) : put f a b x = f x := if_neg h

theorem sumFrom_eq (f : Nat → Nat) (n i : Nat) : sumFrom f n i = ∑ j ∈ Finset.range n, f (i + j) := by
  induction n generalizing i with
  | zero => rfl
  | succ n ih =>
    rw [sumFrom, ih, Finset.sum_range_succ', Nat.add_comm]
    simp only [Nat.add_zero, Nat.add_left_inj]
    apply Finset.sum_congr rfl
    intro j _
    rw [Nat.add_assoc, Nat.add_comm 1 j]

theorem sumFrom_mono {f g : Nat → Nat} (h : ∀ i, f i ≤ g i) (n i : Nat) : sumFrom f n i ≤ sumFrom g n i := by
  rw [sumFrom_eq, sumFrom_eq]
  exact Finset.sum_le_sum fun j _ => h _

theorem distribute_eq (c : Constraint) (need n j : Nat) (f : Nat → Nat) (x : Nat) :
    distribute c need n j f x = if c.lo + j ≤ x ∧ x < c.lo + j + n then
      f x + need / (c.hi - c.lo) + (if need % (c.hi - c.lo) > x - c.lo then 1 else 0) else f x := by
  induction n generalizing j f with
  | zero => rw [distribute, if_neg (by omega)]
  | succ n ih =>
    rw [distribute, ih]
    by_cases hx : x = c.lo + j
    · subst hx
      rw [if_neg (by omega), put_eq, show c.lo + j - c.lo = j by omega]
      symm
      exact if_pos (by omega)
    · rw [put_ne _ _ hx]
      by_cases h : c.lo + j ≤ x ∧ x < c.lo + j + (n + 1)
      · rw [if_pos h, if_pos (by omega)]
      · rw [if_neg h, if_neg (by omega)]

theorem sum_extra (L m : Nat) (h : m ≤ L) : ∑ j ∈ Finset.range L, (if m > j then 1 else 0) = m := by
  induction L generalizing m with
  | zero => simp; omega
  | succ L ih =>
    rw [Finset.sum_range_succ]
    by_cases hm : m ≤ L
    · rw [ih m hm, if_neg (by omega), Nat.add_zero]
    · obtain rfl : m = L + 1 := by omega
      rw [if_pos (by omega)]
      have : ∀ j ∈ Finset.range L, (if L + 1 > j then 1 else 0) = if L > j then 1 else 0 := by
        intro j hj
        have := Finset.mem_range.1 hj
        rw [if_pos (by omega), if_pos (by omega)]
      rw [Finset.sum_congr rfl this, ih L (Nat.le_refl _)]

/-- The amount that is missing is distributed completely. -/
theorem distribute_sum (c : Constraint) (need : Nat) (f : Nat → Nat) (h : c.lo < c.hi) :
    sumFrom (distribute c need (c.hi - c.lo) 0 f) (c.hi - c.lo) c.lo = sumFrom f (c.hi - c.lo) c.lo + need := by
  obtain ⟨L, hL⟩ : ∃ L, c.hi - c.lo = L := ⟨_, rfl⟩
  rw [sumFrom_eq, sumFrom_eq, hL]
  have : ∀ j ∈ Finset.range L, distribute c need L 0 f (c.lo + j) =
      f (c.lo + j) + (need / L + if need % L > j then 1 else 0) := by
    intro j hj
    have := Finset.mem_range.1 hj
    rw [distribute_eq, if_pos (by omega), hL, show c.lo + j - c.lo = j by omega, Nat.add_assoc]
  rw [Finset.sum_congr rfl this, Finset.sum_add_distrib, Finset.sum_add_distrib,
    sum_extra L _ (Nat.le_of_lt (Nat.mod_lt _ (by omega)))]
  simp only [Finset.sum_const, Finset.card_range]
  rw [show L • (need / L) = L * (need / L) from rfl, Nat.div_add_mod]

theorem distribute_le (c : Constraint) (need n j : Nat) (f : Nat → Nat) (x : Nat) : f x ≤ distribute c need n j f x := by
  rw [distribute_eq]
  split
  · exact Nat.le_trans (Nat.le_add_right _ _) (Nat.le_add_right _ _)
  · exact Nat.le_refl _

theorem satisfySimple_le (cs : List Constraint) (f : Nat → Nat) (x : Nat) : f x ≤ satisfySimple cs f x := by
  induction cs generalizing f with
  | nil => exact Nat.le_refl _
  | cons c cs ih =>
    refine Nat.le_trans ?_ (ih _)
    split
    · split
      · by_cases hx : x = c.lo
        · subst hx; rw [put_eq]; omega
        · rw [put_ne _ _ hx]
      · exact Nat.le_refl _
    · exact Nat.le_refl _

theorem satisfyRest_le (cs : List Constraint) (f : Nat → Nat) (x : Nat) : f x ≤ satisfyRest cs f x := by
  induction cs generalizing f with
  | nil => exact Nat.le_refl _
  | cons c cs ih =>
    refine Nat.le_trans ?_ (ih _)
    split
    · exact distribute_le ..
    · exact Nat.le_refl _

/-- All constraints that concern at least one place are satisfied. -/
theorem satisfyRest_spec (cs : List Constraint) (f : Nat → Nat) (c : Constraint) (hc : c ∈ cs) (h : c.lo < c.hi) :
    c.min ≤ sumFrom (satisfyRest cs f) (c.hi - c.lo) c.lo := by
  induction cs generalizing f with
  | nil => simp at hc
  | cons d cs ih =>
    simp only [List.mem_cons] at hc
    rcases hc with rfl | hc
    · refine Nat.le_trans ?_ (sumFrom_mono (satisfyRest_le cs _) _ _)
      split
      · rw [distribute_sum c _ f h, needed]; omega
      · rename_i h0
        rw [needed] at h0; omega
    · exact ih _ hc

theorem satisfy_spec {n : Nat} {cs : List Constraint} (hn : ∀ c ∈ cs, c.hi ≤ n) :
    ∃ f, satisfy n cs = .ok f ∧ ∀ c ∈ cs, c.lo < c.hi → c.min ≤ ∑ i ∈ Finset.range (c.hi - c.lo), f (c.lo + i) := by
  refine ⟨_, if_neg ?_, fun c hc h => ?_⟩
  · simp only [List.any_eq_true, decide_eq_true_eq, not_exists, not_and, Nat.not_lt]
    exact hn
  · have := satisfyRest_spec cs (satisfySimple cs fun _ => 0) c hc h
    rwa [sumFrom_eq] at this

/-- If every constraint concerns one place, no place gets more than what a constraint asks for. -/
theorem satisfySimple_tight (cs : List Constraint) (h1 : ∀ c ∈ cs, c.hi - c.lo = 1) (f : Nat → Nat) (x : Nat) :
    satisfySimple cs f x = f x ∨ ∃ c ∈ cs, c.lo = x ∧ satisfySimple cs f x = c.min := by
  induction cs generalizing f with
  | nil => exact .inl rfl
  | cons c cs ih =>
    have hc := h1 c (by simp)
    rw [satisfySimple, if_pos hc]
    rcases ih (fun d hd => h1 d (by simp [hd])) (if f c.lo < c.min then put f c.lo c.min else f) with h | ⟨d, hd, h2, h3⟩
    · rw [h]
      split
      · by_cases hx : x = c.lo
        · subst hx
          rw [put_eq]
          exact .inr ⟨c, by simp, rfl, rfl⟩
        · rw [put_ne _ _ hx]
          exact .inl rfl
      · exact .inl rfl
    · exact .inr ⟨d, by simp [hd], h2, h3⟩

theorem satisfySimple_spec (cs : List Constraint) (h1 : ∀ c ∈ cs, c.hi - c.lo = 1) (f : Nat → Nat) (c : Constraint)
    (hc : c ∈ cs) : c.min ≤ satisfySimple cs f c.lo := by
  induction cs generalizing f with
  | nil => simp at hc
  | cons d cs ih =>
    simp only [List.mem_cons] at hc
    rw [satisfySimple, if_pos (h1 d (by simp))]
    rcases hc with rfl | hc
    · refine Nat.le_trans ?_ (satisfySimple_le cs _ _)
      split
      · rw [put_eq]
      · omega
    · exact ih (fun d hd => h1 d (by simp [hd])) _ hc

theorem satisfyRest_done (cs : List Constraint) (f : Nat → Nat) (h : ∀ c ∈ cs, needed c f = 0) : satisfyRest cs f = f := by
  induction cs with
  | nil => rfl
  | cons c cs ih =>
    rw [satisfyRest, if_neg (by rw [h c (by simp)]; omega)]
    exact ih fun c hc => h c (by simp [hc])

theorem satisfy_tight {n : Nat} {cs : List Constraint} (hn : ∀ c ∈ cs, c.hi ≤ n) (h1 : ∀ c ∈ cs, c.hi - c.lo = 1) :
    ∃ f, satisfy n cs = .ok f ∧ (∀ c ∈ cs, c.min ≤ f c.lo) ∧ ∀ x, f x = 0 ∨ ∃ c ∈ cs, c.lo = x ∧ f x = c.min := by
  have hd : satisfyRest cs (satisfySimple cs fun _ => 0) = satisfySimple cs fun _ => 0 := by
    refine satisfyRest_done _ _ fun c hc => ?_
    have := satisfySimple_spec cs h1 (fun _ => 0) c hc
    simp only [needed, h1 c hc, sumFrom]
    omega
  refine ⟨satisfySimple cs fun _ => 0, ?_, satisfySimple_spec cs h1 _, satisfySimple_tight cs h1 _⟩
  rw [← hd]
  refine if_neg ?_
  simp only [List.any_eq_true, decide_eq_true_eq, not_exists, not_and, Nat.not_lt]
  exact hn

theorem weaken_spec (line : Nat → Bool) (n j min : Nat) :
    min ≤ weaken line n j min + ∑ i ∈ Finset.range n, if line (j + i) then 1 else 0 := by
  induction n generalizing j min with
  | zero => simp [weaken]
  | succ n ih =>
    rw [Finset.sum_range_succ', weaken]
    split
    · omega
    · have := ih (j + 1) (if line j then min - 1 else min)
      have e : ∑ i ∈ Finset.range n, (if line (j + 1 + i) then 1 else 0) =
          ∑ i ∈ Finset.range n, if line (j + (i + 1)) then 1 else 0 :=
        Finset.sum_congr rfl fun i _ => by rw [Nat.add_assoc, Nat.add_comm 1 i]
      rw [e] at this
      simp only [Nat.add_zero]
      split at this <;> simp_all
      omega

theorem mem_positions {t : Table} {p : Nat × Nat} : p ∈ positions t ↔ p.1 < t.numRows ∧ p.2 < t.numCols := by
  obtain ⟨r, k⟩ := p
  simp [positions]

theorem mem_heads {t : Table} {p : Nat × Nat} :
    p ∈ heads t ↔ (p.1 < t.numRows ∧ p.2 < t.numCols) ∧ (t.cell p).isSet = true ∧ (t.cell p).parent = none := by
  rw [heads, List.mem_filter, mem_positions]
  simp

end Verif.LayoutSpec
