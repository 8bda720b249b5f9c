import Verif.Lemmas.RuleProofs
import Mathlib.Analysis.SpecialFunctions.Trigonometric.Deriv
import Mathlib.Analysis.SpecialFunctions.Trigonometric.InverseDeriv
import Mathlib.Analysis.SpecialFunctions.Trigonometric.ArctanDeriv
import Mathlib.Analysis.SpecialFunctions.Pow.Deriv

/-!
# Rules for derivatives, and rules that may lose values

A rule for derivatives is right if the derivative exists and has the value of the right
side wherever that is defined and the derived expression is defined around the point.
-/

namespace Verif.Rules
open Verif Topology
variable {I : Interp}

/-- The term has a value; if it is a derivative, what is derived has values around the point. -/
def Near (I : Interp) (σ : String → List (Tree ℝ)) : Pat → (Str → ℝ) → Prop
  | .deriv p z, env => ∃ x k i, σ z = [.var x k i] ∧ ∀ᶠ y in 𝓝 (env x), PD I σ p (Function.update env x y)
  | p, env => PD I σ p env

/-- Where the right side has a value (and the left one is defined so far as to make sense), the left side
has the same value. -/
def RuleData.Onward (I : Interp) (r : RuleData) : Prop :=
  ∀ σ, Singles r.left σ → (∀ c ∈ r.conds, c.Holds I σ) →
    ∀ env, Near I σ r.left env → PD I σ r.right env → PD I σ r.left env ∧ PV I σ r.right env = PV I σ r.left env

theorem PD.near {σ : String → List (Tree ℝ)} {p : Pat} {env : Str → ℝ} (h : PD I σ p env) : Near I σ p env := by
  cases p with
  | deriv p z =>
    simp only [PD] at h
    obtain ⟨x, k, i, h1, h2, _⟩ := h
    exact ⟨x, k, i, h1, h2⟩
  | num => exact h
  | v => exact h
  | app => exact h

theorem RuleData.Good.fair {r : RuleData} (h : r.Good I) : r.Fair I :=
  fun σ hs hc env h1 _ => (h σ hs hc env h1).2

theorem RuleData.Onward.fair {r : RuleData} (h : r.Onward I) : r.Fair I :=
  fun σ hs hc env h1 h2 => (h σ hs hc env h1.near h2).2

/-! ## Equations -/

variable {σ : String → List (Tree ℝ)} {env : Str → ℝ} {n : Str} {k i : Nat}

theorem PD_drv {p : Pat} {z : String} (hz : σ z = [.var n k i]) :
    PD I σ (.deriv p z) env ↔ (∀ᶠ y in 𝓝 (env n), PD I σ p (Function.update env n y)) ∧
      DifferentiableAt ℝ (fun y => (PV I σ p (Function.update env n y)).headD 0) (env n) := by
  simp only [PD, hz]
  constructor
  · rintro ⟨x, k, i, h, h'⟩
    cases h
    exact h'
  · intro h
    exact ⟨n, k, i, rfl, h⟩

theorem PV_drv {p : Pat} {z : String} (hz : σ z = [.var n k i]) :
    PV I σ (.deriv p z) env = [_root_.deriv (fun y => (PV I σ p (Function.update env n y)).headD 0) (env n)] := by
  simp only [PV, hz]

theorem near_drv {p : Pat} {z : String} (hz : σ z = [.var n k i]) :
    Near I σ (.deriv p z) env ↔ ∀ᶠ y in 𝓝 (env n), PD I σ p (Function.update env n y) := by
  simp only [Near, hz]
  constructor
  · rintro ⟨x, k, i, h, h'⟩
    cases h
    exact h'
  · intro h
    exact ⟨n, k, i, rfl, h⟩

@[rule_eqs] theorem headD_cons' (a b : ℝ) (l : List ℝ) : (a :: l).headD b = a := rfl

theorem drv_done {F : ℝ → ℝ} {E : Prop} {v w x : ℝ} (hE : E) (h : HasDerivAt F v x) (e : w = v) :
    (E ∧ DifferentiableAt ℝ F x) ∧ [w] = [_root_.deriv F x] :=
  ⟨⟨hE, h.differentiableAt⟩, by rw [h.deriv, e]⟩

/-- The value of the expression at the point is that of the function. -/
theorem va_at (t : Tree ℝ) : va I t env = (fun y => va I t (Function.update env n y)) (env n) := by
  simp

theorem D_at {t : Tree ℝ} (h : ∀ᶠ y in 𝓝 (env n), D I t (Function.update env n y)) : D I t env := by
  simpa using h.self_of_nhds

/-- The variable of a derivative. -/
theorem drv_var {p : Pat} {z : String} (h : Near I σ (.deriv p z) env) : ∃ n k i, σ z = [.var n k i] := by
  obtain ⟨n, k, i, hz, _⟩ := h
  exact ⟨n, k, i, hz⟩

/-! ## Values of variables and constants -/

theorem va_var (hI : I.Right) (n : Str) (k i : Nat) (env : Str → ℝ) : va I (.var n k i) env = env n :=
  ((val_iff hI).1 (show Val I (.var n k i) env (env n) from by simp [Val])).2.symm

theorem D_var (n : Str) (k i : Nat) (env : Str → ℝ) : D I (.var n k i) env := ⟨env n, by simp [Val]⟩

theorem va_const (hI : I.Right) (c : ℝ) (i : Nat) (env : Str → ℝ) : va I (.const c i) env = c :=
  ((val_iff hI).1 (show Val I (.const c i) env c from by simp [Val])).2.symm

theorem D_const (c : ℝ) (i : Nat) (env : Str → ℝ) : D I (.const c i) env := ⟨c, by simp [Val]⟩

/-! ## Derivatives: nothing lost -/

theorem r1_6_good (hI : I.Right) : r1_6.Good I := by
  have := Fact.mk hI
  intro σ hs _ env h
  obtain ⟨n, k, i, hz⟩ := drv_var h.near
  simp only [r1_6, rule_eqs, PD_drv hz, PV_drv hz, hz, va_var hI, Function.update_self] at h ⊢
  norm_num

theorem r1_8_good (hI : I.Right) : r1_8.Good I := by
  have := Fact.mk hI
  intro σ hs hc env h
  obtain ⟨n, k, i, hz⟩ := drv_var h.near
  obtain ⟨cx, hcx⟩ := hs "cx" (by decide) (by decide)
  simp only [r1_8, rule_eqs, PD_drv hz, PV_drv hz, hz, hcx, va_var hI, Function.update_self] at h ⊢
  have hd : D I cx env := D_at (h.1.mono fun y hy => hy.1)
  obtain ⟨c, j, rfl⟩ := hc (.isConst "cx") (by simp [r1_8]) cx env hcx hd
  simp only [va_const hI]
  refine ⟨hd, ?_⟩
  rw [((hasDerivAt_id' (env n)).const_mul c).deriv]
  simp

theorem r1_10_good (hI : I.Right) : r1_10.Good I := by
  have := Fact.mk hI
  intro σ hs _ env h
  obtain ⟨n, k, i, hz⟩ := drv_var h.near
  obtain ⟨x, hx⟩ := hs "x" (by decide) (by decide)
  simp only [r1_10, rule_eqs, PD_drv hz, PV_drv hz, hx] at h ⊢
  refine ⟨⟨h.1, ?_⟩, ?_⟩
  · simpa using h.2.neg
  · rw [deriv.fun_neg]

theorem r1_19_good (hI : I.Right) : r1_19.Good I := by
  have := Fact.mk hI
  intro σ hs _ env h
  obtain ⟨n, k, i, hz⟩ := drv_var h.near
  obtain ⟨x, hx⟩ := hs "x" (by decide) (by decide)
  simp only [r1_19, rule_eqs, PD_drv hz, PV_drv hz, hx] at h ⊢
  have h0 : va I x env ^ 2 + 1 ≠ 0 := by positivity
  have hd : DifferentiableAt ℝ (fun y => va I x (Function.update env n y)) (env n) := by
    have e : (fun y => va I x (Function.update env n y)) =
        fun y => Real.tan (Real.arctan (va I x (Function.update env n y))) := by
      funext y; rw [Real.tan_arctan]
    rw [e]
    exact DifferentiableAt.comp (g := Real.tan) (env n)
      (Real.differentiableAt_tan.2 (Real.cos_arctan_pos _).ne') h.2
  refine ⟨⟨⟨⟨h.1, hd⟩, D_at h.1⟩, h0⟩, ?_⟩
  rw [hd.hasDerivAt.arctan.deriv]
  refine single_congr ?_
  simp only [Function.update_eq_self]
  field_simp
  ring

theorem r1_20_good (hI : I.Right) : r1_20.Good I := by
  have := Fact.mk hI
  intro σ hs _ env h
  obtain ⟨n, k, i, hz⟩ := drv_var h.near
  obtain ⟨y, hy⟩ := hs "y" (by decide) (by decide)
  simp only [r1_20, rule_eqs, PD_drv hz, PV_drv hz, hy] at h ⊢
  have hd : DifferentiableAt ℝ (fun t => va I y (Function.update env n t)) (env n) := by
    have e : (fun t => va I y (Function.update env n t)) =
        fun t => Real.log (Real.exp (va I y (Function.update env n t))) := by
      funext t; rw [Real.log_exp]
    rw [e]
    exact DifferentiableAt.log h.2 (Real.exp_ne_zero _)
  refine ⟨⟨⟨h.1, hd⟩, D_at h.1⟩, ?_⟩
  rw [hd.hasDerivAt.exp.deriv]
  refine single_congr ?_
  simp only [Function.update_eq_self]
  ring

theorem r1_22_good (hI : I.Right) : r1_22.Good I := by
  have := Fact.mk hI
  intro σ hs _ env h
  obtain ⟨n, k, i, hz⟩ := drv_var h.near
  obtain ⟨x, hx⟩ := hs "x" (by decide) (by decide)
  simp only [r1_22, rule_eqs, PD_drv hz, PV_drv hz, hx] at h ⊢
  obtain ⟨h1, h2⟩ := h
  have e : (fun t => fnV I 19 [va I x (Function.update env n t)]) =ᶠ[𝓝 (env n)]
      fun t => Real.log (va I x (Function.update env n t)) := by
    filter_upwards [h1] with t ht
    exact fnV_ln _ ht.2
  have hl := e.differentiableAt_iff.1 h2
  have hp : 0 < va I x env := by simpa using h1.self_of_nhds.2
  have hd : DifferentiableAt ℝ (fun t => va I x (Function.update env n t)) (env n) := by
    have e' : (fun t => va I x (Function.update env n t)) =ᶠ[𝓝 (env n)]
        fun t => Real.exp (Real.log (va I x (Function.update env n t))) := by
      filter_upwards [h1] with t ht
      rw [Real.exp_log ht.2]
    exact e'.differentiableAt_iff.2 hl.exp
  refine ⟨⟨⟨h1.mono fun t ht => ht.1, hd⟩, D_at (h1.mono fun t ht => ht.1), hp.ne'⟩, ?_⟩
  rw [e.deriv_eq, (hd.hasDerivAt.log (by simpa using hp.ne')).deriv]
  refine single_congr ?_
  simp only [Function.update_eq_self]
  rfl

/-! ## Derivatives: onward -/

theorem r1_11_onward (hI : I.Right) : r1_11.Onward I := by
  have := Fact.mk hI
  intro σ hs _ env h' h
  obtain ⟨n, k, i, hz⟩ := drv_var h'
  obtain ⟨x, hx⟩ := hs "x" (by decide) (by decide)
  obtain ⟨y, hy⟩ := hs "y" (by decide) (by decide)
  simp only [r1_11, near_drv hz, rule_eqs, PD_drv hz, PV_drv hz, hx, hy] at h' h ⊢
  exact drv_done h' (h.1.2.hasDerivAt.fun_add h.2.2.hasDerivAt) rfl

theorem r1_12_onward (hI : I.Right) : r1_12.Onward I := by
  have := Fact.mk hI
  intro σ hs _ env h' h
  obtain ⟨n, k, i, hz⟩ := drv_var h'
  obtain ⟨x, hx⟩ := hs "x" (by decide) (by decide)
  obtain ⟨y, hy⟩ := hs "y" (by decide) (by decide)
  simp only [r1_12, near_drv hz, rule_eqs, PD_drv hz, PV_drv hz, hx, hy] at h' h ⊢
  exact drv_done h' (h.1.2.hasDerivAt.fun_sub h.2.2.hasDerivAt) rfl

theorem r1_13_onward (hI : I.Right) : r1_13.Onward I := by
  have := Fact.mk hI
  intro σ hs _ env h' h
  obtain ⟨n, k, i, hz⟩ := drv_var h'
  obtain ⟨x, hx⟩ := hs "x" (by decide) (by decide)
  obtain ⟨y, hy⟩ := hs "y" (by decide) (by decide)
  simp only [r1_13, near_drv hz, rule_eqs, PD_drv hz, PV_drv hz, hx, hy] at h' h ⊢
  exact drv_done h' (h.1.1.2.hasDerivAt.fun_mul h.2.2.2.hasDerivAt) (by simp)

theorem r1_14_onward (hI : I.Right) : r1_14.Onward I := by
  have := Fact.mk hI
  intro σ hs _ env h' h
  obtain ⟨n, k, i, hz⟩ := drv_var h'
  obtain ⟨x, hx⟩ := hs "x" (by decide) (by decide)
  simp only [r1_14, near_drv hz, rule_eqs, PD_drv hz, PV_drv hz, hx] at h' h ⊢
  exact drv_done h' h.2.2.hasDerivAt.sin (by simp)

theorem r1_15_onward (hI : I.Right) : r1_15.Onward I := by
  have := Fact.mk hI
  intro σ hs _ env h' h
  obtain ⟨n, k, i, hz⟩ := drv_var h'
  obtain ⟨x, hx⟩ := hs "x" (by decide) (by decide)
  simp only [r1_15, near_drv hz, rule_eqs, PD_drv hz, PV_drv hz, hx] at h' h ⊢
  exact drv_done h' h.2.2.hasDerivAt.cos (by simp)

theorem r1_16_onward (hI : I.Right) : r1_16.Onward I := by
  have := Fact.mk hI
  intro σ hs _ env h' h
  obtain ⟨n, k, i, hz⟩ := drv_var h'
  obtain ⟨x, hx⟩ := hs "x" (by decide) (by decide)
  simp only [r1_16, near_drv hz, rule_eqs, PD_drv hz, PV_drv hz, hx] at h' h ⊢
  have hc : Real.cos (va I x env) ≠ 0 := h.2.2
  have h1 := h.1.2.hasDerivAt
  have h2 := h1.sin.fun_div h1.cos (by simpa using hc)
  refine drv_done h' h2 ?_
  simp only [Function.update_eq_self]
  have := Real.sin_sq_add_cos_sq (va I x env)
  field_simp
  linear_combination (-_root_.deriv (fun y => va I x (Function.update env n y)) (env n)) * this

/-- The domain of the rules for inverse sine and cosine. -/
theorem open_of_sqrt {v : ℝ} (h : √(1 - v ^ 2) ≠ 0) : v ≠ -1 ∧ v ≠ 1 := by
  constructor <;> rintro rfl <;> simp at h

theorem r1_17_onward (hI : I.Right) : r1_17.Onward I := by
  have := Fact.mk hI
  intro σ hs _ env h' h
  obtain ⟨n, k, i, hz⟩ := drv_var h'
  obtain ⟨x, hx⟩ := hs "x" (by decide) (by decide)
  simp only [r1_17, near_drv hz, rule_eqs, PD_drv hz, PV_drv hz, hx] at h' h ⊢
  have ho := open_of_sqrt h.2
  have h1 := h.1.1.2.hasDerivAt
  have h2 := (Real.hasDerivAt_arcsin (x := va I x (Function.update env n (env n)))
    (by simpa using ho.1) (by simpa using ho.2)).comp (env n) h1
  refine drv_done h' (h2.congr_of_eventuallyEq ?_) ?_
  · filter_upwards [h'] with t ht
    exact fnV_asin _ ht.2
  · simp only [Function.update_eq_self]
    field_simp

theorem r1_18_onward (hI : I.Right) : r1_18.Onward I := by
  have := Fact.mk hI
  intro σ hs _ env h' h
  obtain ⟨n, k, i, hz⟩ := drv_var h'
  obtain ⟨x, hx⟩ := hs "x" (by decide) (by decide)
  simp only [r1_18, near_drv hz, rule_eqs, PD_drv hz, PV_drv hz, hx] at h' h ⊢
  have ho := open_of_sqrt h.2
  have h1 := h.1.1.2.hasDerivAt
  have h2 := (Real.hasDerivAt_arccos (x := va I x (Function.update env n (env n)))
    (by simpa using ho.1) (by simpa using ho.2)).comp (env n) h1
  refine drv_done h' (h2.congr_of_eventuallyEq ?_) ?_
  · filter_upwards [h'] with t ht
    exact fnV_acos _ ht.2
  · simp only [Function.update_eq_self]
    field_simp

theorem r1_19_onward (hI : I.Right) : r1_19.Onward I := by
  have := Fact.mk hI
  intro σ hs _ env h' h
  obtain ⟨n, k, i, hz⟩ := drv_var h'
  obtain ⟨x, hx⟩ := hs "x" (by decide) (by decide)
  simp only [r1_19, near_drv hz, rule_eqs, PD_drv hz, PV_drv hz, hx] at h' h ⊢
  have h0 : va I x env ^ 2 + 1 ≠ 0 := by positivity
  refine drv_done h' h.1.1.2.hasDerivAt.arctan ?_
  simp only [Function.update_eq_self]
  field_simp
  ring

theorem r1_20_onward (hI : I.Right) : r1_20.Onward I := by
  have := Fact.mk hI
  intro σ hs _ env h' h
  obtain ⟨n, k, i, hz⟩ := drv_var h'
  obtain ⟨y, hy⟩ := hs "y" (by decide) (by decide)
  simp only [r1_20, near_drv hz, rule_eqs, PD_drv hz, PV_drv hz, hy] at h' h ⊢
  refine drv_done h' h.1.2.hasDerivAt.exp ?_
  simp only [Function.update_eq_self]
  ring

theorem r1_21_onward (hI : I.Right) : r1_21.Onward I := by
  have := Fact.mk hI
  intro σ hs _ env h' h
  obtain ⟨n, k, i, hz⟩ := drv_var h'
  obtain ⟨x, hx⟩ := hs "x" (by decide) (by decide)
  obtain ⟨y, hy⟩ := hs "y" (by decide) (by decide)
  simp only [r1_21, near_drv hz, rule_eqs, PD_drv hz, PV_drv hz, hx, hy] at h' h ⊢
  obtain ⟨⟨⟨⟨hdy, h1⟩, -⟩, h2, hdx, hpos⟩, -, hp⟩ := h
  have h3 := h1.2.hasDerivAt.rpow h2.2.hasDerivAt (by simpa using hpos)
  rw [fnV_ln _ hpos, fnV_pow _ _ hp]
  refine drv_done h' (h3.congr_of_eventuallyEq ?_) ?_
  · filter_upwards [h'] with t ht
    exact fnV_pow _ _ ht.2
  · simp only [Function.update_eq_self]
    rw [Real.rpow_sub_one hpos.ne']
    field_simp

theorem r1_22_onward (hI : I.Right) : r1_22.Onward I := by
  have := Fact.mk hI
  intro σ hs _ env h' h
  obtain ⟨n, k, i, hz⟩ := drv_var h'
  obtain ⟨x, hx⟩ := hs "x" (by decide) (by decide)
  simp only [r1_22, near_drv hz, rule_eqs, PD_drv hz, PV_drv hz, hx] at h' h ⊢
  have hp : 0 < va I x env := by simpa using h'.self_of_nhds.2
  have h3 := h.1.2.hasDerivAt.log (by simpa using hp.ne')
  refine drv_done h' (h3.congr_of_eventuallyEq ?_) ?_
  · filter_upwards [h'] with t ht
    exact fnV_ln _ ht.2
  · simp only [Function.update_eq_self]
    rfl

theorem r1_10_onward (hI : I.Right) : r1_10.Onward I := by
  have := Fact.mk hI
  intro σ hs _ env h' h
  obtain ⟨n, k, i, hz⟩ := drv_var h'
  obtain ⟨x, hx⟩ := hs "x" (by decide) (by decide)
  simp only [r1_10, near_drv hz, rule_eqs, PD_drv hz, PV_drv hz, hx] at h' h ⊢
  exact drv_done h' h.2.hasDerivAt.fun_neg rfl

theorem r1_6_onward (hI : I.Right) : r1_6.Onward I := by
  have := Fact.mk hI
  intro σ hs _ env h' h
  obtain ⟨n, k, i, hz⟩ := drv_var h'
  simp only [r1_6, near_drv hz, rule_eqs, PD_drv hz, PV_drv hz, hz, va_var hI, Function.update_self] at h' h ⊢
  exact drv_done h' (hasDerivAt_id' _) rfl

theorem r1_8_onward (hI : I.Right) : r1_8.Onward I := by
  have := Fact.mk hI
  intro σ hs hc env h' h
  obtain ⟨n, k, i, hz⟩ := drv_var h'
  obtain ⟨cx, hcx⟩ := hs "cx" (by decide) (by decide)
  simp only [r1_8, near_drv hz, rule_eqs, PD_drv hz, PV_drv hz, hz, hcx, va_var hI, Function.update_self] at h' h ⊢
  obtain ⟨c, j, rfl⟩ := hc (.isConst "cx") (by simp [r1_8]) cx env hcx h
  simp only [va_const hI]
  exact drv_done h' ((hasDerivAt_id' (env n)).const_mul c) (by simp)

theorem r1_9_onward (hI : I.Right) : r1_9.Onward I := by
  have := Fact.mk hI
  intro σ hs hc env h' h
  obtain ⟨n, k, i, hz⟩ := drv_var h'
  obtain ⟨cx, hcx⟩ := hs "cx" (by decide) (by decide)
  obtain ⟨cy, hcy⟩ := hs "cy" (by decide) (by decide)
  simp only [r1_9, near_drv hz, rule_eqs, PD_drv hz, PV_drv hz, hz, hcx, hcy, va_var hI, Function.update_self] at h' h ⊢
  obtain ⟨⟨h1, h2⟩, ⟨-, -⟩, h3⟩ := h
  obtain ⟨c, j, rfl⟩ := hc (.isConst "cx") (by simp [r1_9]) cx env hcx h1
  obtain ⟨d, j, rfl⟩ := hc (.isConst "cy") (by simp [r1_9]) cy env hcy h2
  simp only [va_const hI] at h3 h' ⊢
  rw [fnV_pow _ _ h3]
  have hp : HasDerivAt (fun t => t ^ d) (d * env n ^ (d - 1)) (env n) := by
    refine Real.hasDerivAt_rpow_const ?_
    rcases h3 with h3 | h3 | h3
    · exact .inl h3.ne'
    · exact .inr (by linarith [h3.2])
    · exact .inl h3.1.ne
  refine drv_done h' ((hp.const_mul c).congr_of_eventuallyEq ?_) (by ring)
  filter_upwards [h'] with t ht
  rw [fnV_pow _ _ ht.2.2]

/-- `deriv(x, z) -> 0`: right if `x` is not the variable itself. -/
theorem r1_7_onward (hI : I.Right) (σ) (hs : Singles r1_7.left σ) (hc : ∀ c ∈ r1_7.conds, c.Holds I σ)
    (hne : ∀ n k i k' i', σ "z" = [.var n k i] → σ "x" ≠ [.var n k' i']) (env) (h' : Near I σ r1_7.left env) :
    PD I σ r1_7.left env ∧ PD I σ r1_7.right env ∧ PV I σ r1_7.right env = PV I σ r1_7.left env := by
  have := Fact.mk hI
  obtain ⟨n, k, i, hz⟩ := drv_var h'
  obtain ⟨x, hx⟩ := hs "x" (by decide) (by decide)
  simp only [r1_7, near_drv hz, rule_eqs, PD_drv hz, PV_drv hz, hx] at h' ⊢
  rcases hc (.notOp "x") (by simp [r1_7]) x env hx (D_at h') with ⟨c, j, rfl⟩ | ⟨m, y, j, rfl⟩
  · simp only [va_const hI]
    exact drv_done h' (hasDerivAt_const _ _) rfl
  · have hm : m ≠ n := by rintro rfl; exact hne _ _ _ y j hz hx
    simp only [va_var hI, Function.update_of_ne hm]
    exact drv_done h' (hasDerivAt_const _ _) rfl

/-! ## Rules that may lose values -/

theorem r3_34_fair (hI : I.Right) : r3_34.Fair I := by
  have := Fact.mk hI
  intro σ hs _ env h h'
  obtain ⟨x, hx⟩ := hs "x" (by decide) (by decide)
  obtain ⟨y, hy⟩ := hs "y" (by decide) (by decide)
  obtain ⟨z, hz⟩ := hs "z" (by decide) (by decide)
  simp only [r3_34, rule_eqs, hx, hy, hz] at h h' ⊢
  rw [fnV_pow _ _ h.2, fnV_pow _ _ h'.1.2, fnV_pow _ _ h'.2.2, Verif.PowOk.mul_rpow h'.1.2 h'.2.2]

theorem r3_41_fair (hI : I.Right) : r3_41.Fair I := by
  have := Fact.mk hI
  intro σ hs _ env h h'
  obtain ⟨x, hx⟩ := hs "x" (by decide) (by decide)
  obtain ⟨y, hy⟩ := hs "y" (by decide) (by decide)
  simp only [r3_41, rule_eqs, hx, hy] at h h' ⊢
  obtain ⟨-, ⟨-, h1⟩, -, ⟨-, h2⟩, -⟩ := h
  obtain ⟨-, ⟨⟨⟨-, hc⟩, -⟩, h3⟩, -⟩ := h'
  rw [fnV_pow _ _ h1, fnV_pow _ _ h2, fnV_pow _ _ h3]
  refine single_congr ?_
  have key : (Real.sin (va I x env) / Real.cos (va I x env)) ^ va I y env =
      Real.sin (va I x env) ^ va I y env * Real.cos (va I x env) ^ (-va I y env) := by
    have hinv : PowOk (Real.cos (va I x env))⁻¹ (va I y env) ∧
        ((Real.cos (va I x env))⁻¹) ^ va I y env = Real.cos (va I x env) ^ (-va I y env) := by
      rcases h2 with h2 | h2 | ⟨h2, m, hm⟩
      · exact ⟨.inl (inv_pos.2 h2), by rw [Real.inv_rpow h2.le, Real.rpow_neg h2.le]⟩
      · exact absurd h2.1 hc
      · have hm' : va I y env = ((-m : ℤ) : ℝ) := by push_cast; linarith
        refine ⟨.inr (.inr ⟨inv_lt_zero.2 h2, -m, hm'⟩), ?_⟩
        rw [hm, hm', Real.rpow_intCast, Real.rpow_intCast, inv_zpow', neg_neg]
    rw [div_eq_mul_inv, Verif.PowOk.mul_rpow h1 hinv.1, hinv.2]
  rw [key]
  ring

theorem r5_3_fair (hI : I.Right) : r5_3.Fair I := by
  have := Fact.mk hI
  intro σ hs _ env h h'
  obtain ⟨x, hx⟩ := hs "x" (by decide) (by decide)
  obtain ⟨y, hy⟩ := hs "y" (by decide) (by decide)
  simp only [r5_3, rule_eqs, hx, hy] at h h' ⊢
  rw [fnV_pow _ _ h.2, fnV_pow _ _ h'.1.2]
  refine single_congr ?_
  rcases h.2 with h2 | h2 | ⟨h2, m, hm⟩
  · rw [Real.rpow_neg h2.le, one_div]
  · rcases h'.1.2 with h3 | h3 | h3
    · exact absurd h2.1 h3.ne'
    · linarith [h2.2, h3.2]
    · exact absurd h2.1 h3.1.ne
  · have hm' : va I y env = ((-m : ℤ) : ℝ) := by push_cast; linarith
    rw [hm, hm', Real.rpow_intCast, Real.rpow_intCast, one_div, zpow_neg, inv_inv]

theorem r5_18_fair (hI : I.Right) : r5_18.Fair I := by
  have := Fact.mk hI
  intro σ hs _ env h h'
  obtain ⟨x, hx⟩ := hs "x" (by decide) (by decide)
  obtain ⟨y, hy⟩ := hs "y" (by decide) (by decide)
  simp only [r5_18, rule_eqs, hx, hy] at h h' ⊢
  rw [fnV_pow _ _ h.2, fnV_root _ _ h'.2]

end Verif.Rules
