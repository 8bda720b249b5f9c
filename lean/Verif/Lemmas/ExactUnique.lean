import Verif.Lemmas.RealValue

/-!
# The operators have at most one value, and an interpretation exists
-/

namespace Verif

theorem mod_unique {x y v w : ℝ} (hv : |v| < |y|) (sv : 0 ≤ v * x) (hw : |w| < |y|) (sw : 0 ≤ w * x)
    {k l : ℤ} (h1 : x = k * y + v) (h2 : x = l * y + w) : v = w := by
  have hy : 0 < |y| := lt_of_le_of_lt (abs_nonneg v) hv
  have hd : v - w = (l - k : ℤ) * y := by push_cast; linarith
  have hlt : |v - w| < |y| := by
    rcases lt_trichotomy x 0 with hx | hx | hx
    · have a1 : v ≤ 0 := by nlinarith
      have a2 : w ≤ 0 := by nlinarith
      rw [abs_of_nonpos a1] at hv
      rw [abs_of_nonpos a2] at hw
      rw [abs_lt]; constructor <;> linarith
    · subst hx
      have z : ∀ (m : ℤ) (u : ℝ), |u| < |y| → (0 : ℝ) = m * y + u → u = 0 := by
        intro m u hu he
        have e : u = (-m : ℤ) * y := by push_cast; linarith
        rw [e, abs_mul] at hu
        have : |((-m : ℤ) : ℝ)| < 1 := by
          by_contra hc
          have := mul_le_mul_of_nonneg_right (not_lt.1 hc) hy.le
          linarith
        rw [← Int.cast_abs] at this
        have : |(-m : ℤ)| < 1 := by exact_mod_cast this
        rw [Int.abs_lt_one_iff] at this
        rw [e, this]; simp
      rw [z k v hv h1, z l w hw h2]
      simpa using hy
    · have a1 : 0 ≤ v := by nlinarith
      have a2 : 0 ≤ w := by nlinarith
      rw [abs_of_nonneg a1] at hv
      rw [abs_of_nonneg a2] at hw
      rw [abs_lt]; constructor <;> linarith
  rw [hd, abs_mul] at hlt
  have : |((l - k : ℤ) : ℝ)| < 1 := by
    by_contra hc
    have := mul_le_mul_of_nonneg_right (not_lt.1 hc) hy.le
    linarith
  rw [← Int.cast_abs] at this
  have : |(l - k : ℤ)| < 1 := by exact_mod_cast this
  rw [Int.abs_lt_one_iff] at this
  rw [this] at hd
  simp at hd
  linarith

theorem root_unique {x n v w : ℝ} (h1 : 0 < v ∧ n ≠ 0 ∧ v ^ n = x ∨ x = 0 ∧ 0 < n ∧ v = 0)
    (h2 : 0 < w ∧ n ≠ 0 ∧ w ^ n = x ∨ x = 0 ∧ 0 < n ∧ w = 0) : v = w := by
  rcases h1 with ⟨a, b, rfl⟩ | ⟨rfl, b, rfl⟩
  · rcases h2 with ⟨c, d, h⟩ | ⟨c, d, rfl⟩
    · exact ((Real.rpow_left_inj c.le a.le b).1 h).symm
    · exact absurd c (Real.rpow_pos_of_pos a n).ne'
  · rcases h2 with ⟨c, d, h⟩ | ⟨c, d, rfl⟩
    · exact absurd h (Real.rpow_pos_of_pos c n).ne'
    · rfl

theorem log_unique {x n v w : ℝ} (h1 : 0 < n ∧ n ≠ 1 ∧ n ^ v = x) (h2 : 0 < n ∧ n ≠ 1 ∧ n ^ w = x) : v = w := by
  have h := congrArg Real.log (h1.2.2.trans h2.2.2.symm)
  rw [Real.log_rpow h1.1, Real.log_rpow h1.1] at h
  have : Real.log n ≠ 0 := Real.log_ne_zero_of_pos_of_ne_one h1.1 h1.2.1
  exact mul_right_cancel₀ this h

theorem atan_unique {x v w : ℝ} (h1 : -(Real.pi / 2) < v ∧ v < Real.pi / 2 ∧ Real.sin v = x * Real.cos v)
    (h2 : -(Real.pi / 2) < w ∧ w < Real.pi / 2 ∧ Real.sin w = x * Real.cos w) : v = w := by
  have key : ∀ u, -(Real.pi / 2) < u ∧ u < Real.pi / 2 ∧ Real.sin u = x * Real.cos u → u = Real.arctan x := by
    rintro u ⟨a, b, c⟩
    have hc : Real.cos u ≠ 0 := (Real.cos_pos_of_mem_Ioo ⟨a, b⟩).ne'
    have : Real.tan u = x := by rw [Real.tan_eq_sin_div_cos, c]; field_simp
    rw [← this, Real.arctan_tan a b]
  rw [key v h1, key w h2]

theorem Exact.unique {name : String} {pl : Placement} {args : List ℝ} {v w : ℝ} (h1 : Exact name pl args v)
    (h2 : Exact name pl args w) : v = w := by
  unfold Exact at h1
  split at h1 <;> simp only [Exact] at h2
  · exact h1.trans h2.symm
  · exact h1.trans h2.symm
  · exact h1.trans h2.symm
  · linarith
  · exact h1.trans h2.symm
  · exact h1.trans h2.symm
  · exact h1.trans h2.symm
  · exact mul_right_cancel₀ h1.1 (h1.2.trans h2.2.symm)
  · exact (power_iff.1 h1).2.trans (power_iff.1 h2).2.symm
  · obtain ⟨a, b, c, k, d⟩ := h1
    obtain ⟨-, b', c', k', d'⟩ := h2
    exact mod_unique b c b' c' d d'
  · exact h1.trans h2.symm
  · exact root_unique h1 h2
  · nlinarith [h1.1, h2.1, h1.2, h2.2, mul_self_inj_of_nonneg h1.1 h2.1]
  · exact log_unique h1 h2
  · exact Real.exp_injective (h1.trans h2.symm)
  · exact h1.trans h2.symm
  · exact h1.trans h2.symm
  · exact mul_right_cancel₀ h1.1 (h1.2.trans h2.2.symm)
  · exact Real.injOn_sin ⟨h1.1, h1.2.1⟩ ⟨h2.1, h2.2.1⟩ (h1.2.2.trans h2.2.2.symm)
  · exact Real.injOn_cos ⟨h1.1, h1.2.1⟩ ⟨h2.1, h2.2.1⟩ (h1.2.2.trans h2.2.2.symm)
  · exact atan_unique h1 h2
  · exact le_antisymm (h2.2 _ h1.1) (h1.2 _ h2.1)
  · exact le_antisymm (h1.2 _ h2.1) (h2.2 _ h1.1)
  · exact h1.trans h2.symm
  · exact h1.trans h2.symm
  · have : ((args.length : ℕ) : ℝ) ≠ 0 := by simpa using h1.1
    exact mul_right_cancel₀ this (h1.2.trans h2.2.symm)
  · exact h1.trans h2.symm
  · exact h1.trans h2.symm

/-- The interpretation in which only the explained operators have values. -/
def standard : Interp where
  fn k args v := ∃ x ∈ explained.zip explainedIds, x.2 = k ∧ Exact x.1.1 x.1.2 args v
  deriv := 3

theorem lookup_id_eq {name : String} {pl : Placement} {k : Nat}
    (h : ((name, pl), k) ∈ (("deriv", Placement.function), 3) :: (explained.zip explainedIds ++
      constraintOnly.zip constraintIds)) {c : Ctx} {a : Nat} {o : Op} (hc : propCtx = .ok c)
    (hl : c.lookup name.toList pl = .ok (some (a, o))) : o.id = k := by
  obtain ⟨c', a', o', h1, h2, h3⟩ := lookup_id h
  rw [hc] at h1
  cases h1
  rw [hl] at h2
  cases h2
  exact h3

theorem mem_zip_of {α β : Type} {l : List α} {m : List β} (h : l.length = m.length) {x : α} (hx : x ∈ l) :
    ∃ y, (x, y) ∈ l.zip m := by
  obtain ⟨i, hi, rfl⟩ := List.mem_iff_getElem.1 hx
  exact ⟨m[i]'(h ▸ hi), List.mem_iff_getElem.2 ⟨i, by simp [← h, hi], by simp⟩⟩

theorem same_of_id : ∀ x ∈ explained.zip explainedIds, ∀ y ∈ explained.zip explainedIds, x.2 = y.2 → x = y := by
  decide +kernel

theorem standard_right : standard.Right where
  unique := by
    rintro k args v w ⟨x, hx, h1, h2⟩ ⟨y, hy, h3, h4⟩
    obtain rfl := same_of_id x hx y hy (h1.trans h3.symm)
    exact h2.unique h4
  exact := by
    intro name pl h c a o hc hl args v
    obtain ⟨k, hk⟩ := mem_zip_of (m := explainedIds) (by decide) h
    have := lookup_id_eq (List.mem_cons_of_mem _ (List.mem_append_left _ hk)) hc hl
    constructor
    · rintro ⟨y, hy, h1, h2⟩
      obtain rfl := same_of_id _ hk y hy (this.symm.trans h1.symm)
      exact h2
    · intro h
      exact ⟨_, hk, this.symm, h⟩
  silent := by
    intro name pl h c a o hc hl args v
    obtain ⟨k, hk⟩ := mem_zip_of (m := constraintIds) (by decide) h
    have e := lookup_id_eq (List.mem_cons_of_mem _ (List.mem_append_right _ hk)) hc hl
    rintro ⟨y, hy, h1, -⟩
    have h3 := (List.of_mem_zip hk).2
    have h4 := (List.of_mem_zip hy).2
    rw [h1, e] at h4
    revert h3 h4
    have : ∀ k ∈ constraintIds, k ∉ explainedIds := by decide
    exact this k
  derivative := by
    intro c a o hc hl
    exact lookup_id_eq (k := 3) (by simp) hc hl

open Classical in
/-- Evaluation of operators by this interpretation. -/
noncomputable def standardArith (o : Op) (args : List ℝ) : Except Unit ℝ :=
  if h : ∃ v, standard.fn o.id args v then .ok h.choose else .error ()

theorem standardArith_follows : Follows standard standardArith := by
  intro o args v w h hw
  unfold standardArith at h
  have h' : ∃ v, standard.fn o.id args v := ⟨w, hw⟩
  rw [dif_pos h'] at h
  cases h
  exact standard_right.unique _ _ _ _ h'.choose_spec hw

end Verif
