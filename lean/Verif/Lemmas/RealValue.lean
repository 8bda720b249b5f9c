import Verif.Spec.RealValue
import Verif.Spec.Matching
import Verif.Lemmas.Simplification
import Mathlib.Analysis.SpecialFunctions.Sqrt
import Mathlib.Tactic.FieldSimp
import Mathlib.Tactic.Linarith

/-!
# Facts about values over the real numbers
-/

namespace Verif
open Topology
variable {I : Interp}

/-! ## Ids of the operators -/

/-- Ids of the operators of `explained`. -/
def explainedIds : List Nat :=
  [0, 11, 12, 14, 4, 5, 6, 7, 8, 10, 15, 16, 17, 18, 19, 22, 23, 24, 25, 26, 27, 34, 35, 43, 44, 45, 73, 53]

/-- Ids of the operators of `constraintOnly`. -/
def constraintIds : List Nat := [60, 61, 65, 66, 67, 68, 69, 72, 58, 59, 62, 63, 64, 70, 71]

def idsRight : Bool := match propCtx with
  | .ok c => ((("deriv", Placement.function), 3) :: (explained.zip explainedIds ++
      constraintOnly.zip constraintIds)).all fun x =>
      match c.lookup x.1.1.toList x.1.2 with
      | .ok (some (_, o)) => o.id == x.2
      | _ => false
  | _ => false

theorem idsRight_true : idsRight = true := by decide +kernel

theorem lookup_id {name : String} {pl : Placement} {k : Nat}
    (h : ((name, pl), k) ∈ (("deriv", Placement.function), 3) :: (explained.zip explainedIds ++
      constraintOnly.zip constraintIds)) :
    ∃ c a o, propCtx = .ok c ∧ c.lookup name.toList pl = .ok (some (a, o)) ∧ o.id = k := by
  have key := idsRight_true
  unfold idsRight at key
  cases hc : propCtx with
  | defect => rw [hc] at key; cases key
  | ub => rw [hc] at key; cases key
  | ok c =>
    rw [hc] at key
    have := List.all_eq_true.1 key _ h
    simp only at this
    split at this
    · rename_i a o heq
      exact ⟨c, a, o, rfl, heq, by simpa using this⟩
    · cases this

theorem Interp.Right.deriv_eq (h : I.Right) : I.deriv = 3 := by
  obtain ⟨c, a, o, h1, h2, h3⟩ := lookup_id (name := "deriv") (pl := .function) (k := 3) (by simp)
  rw [← h.derivative c a o h1 h2, h3]

theorem Interp.Right.fn_eq (h : I.Right) {name : String} {pl : Placement} {k : Nat}
    (hk : ((name, pl), k) ∈ explained.zip explainedIds) (args : List ℝ) (v : ℝ) :
    I.fn k args v ↔ Exact name pl args v := by
  obtain ⟨c, a, o, h1, h2, rfl⟩ := lookup_id (List.mem_cons_of_mem _ (List.mem_append_left _ hk))
  exact h.exact name pl (List.of_mem_zip hk).1 c a o h1 h2 args v

theorem Interp.Right.silent_eq (h : I.Right) {k : Nat} (hk : k ∈ constraintIds) (args : List ℝ) (v : ℝ) :
    ¬ I.fn k args v := by
  obtain ⟨x, hx⟩ : ∃ x : String × Placement, (x, k) ∈ constraintOnly.zip constraintIds := by
    simp only [constraintIds, List.mem_cons, List.not_mem_nil, or_false] at hk
    rcases hk with rfl | rfl | rfl | rfl | rfl | rfl | rfl | rfl | rfl | rfl | rfl | rfl | rfl | rfl | rfl <;>
      simp [constraintOnly, constraintIds]
  obtain ⟨c, a, o, h1, h2, rfl⟩ := lookup_id (List.mem_cons_of_mem _ (List.mem_append_right _ hx))
  exact h.silent x.1 x.2 (List.of_mem_zip hx).1 c a o h1 h2 args v

section
variable (h : I.Right) (x y v : ℝ) (l : List ℝ)
include h

theorem fn_dollar : I.fn 0 [x] v ↔ v = x := (h.fn_eq (name := "$") (pl := .prefix) (by decide) _ _)
theorem fn_plus : I.fn 11 [x] v ↔ v = x := (h.fn_eq (name := "+") (pl := .prefix) (by decide) _ _)
theorem fn_neg : I.fn 12 [x] v ↔ v = -x := (h.fn_eq (name := "-") (pl := .prefix) (by decide) _ _)
theorem fn_percent : I.fn 14 [x] v ↔ v = x / 100 :=
  (h.fn_eq (name := "%") (pl := .postfix) (by decide) _ _).trans
    ⟨fun (h : v * 100 = x) => by linarith, fun h => show v * 100 = x by linarith⟩
theorem fn_add : I.fn 4 [x, y] v ↔ v = x + y := (h.fn_eq (name := "+") (pl := .infix) (by decide) _ _)
theorem fn_sub : I.fn 5 [x, y] v ↔ v = x - y := (h.fn_eq (name := "-") (pl := .infix) (by decide) _ _)
theorem fn_mul : I.fn 6 [x, y] v ↔ v = x * y := (h.fn_eq (name := "*") (pl := .infix) (by decide) _ _)
theorem fn_div : I.fn 7 [x, y] v ↔ y ≠ 0 ∧ v = x / y :=
  (h.fn_eq (name := "/") (pl := .infix) (by decide) _ _).trans
    (show (y ≠ 0 ∧ v * y = x) ↔ _ from and_congr_right fun hy => (eq_div_iff hy).symm)
theorem fn_pow : I.fn 8 [x, y] v ↔ Power x y v := (h.fn_eq (name := "^") (pl := .infix) (by decide) _ _)
theorem fn_mod : I.fn 10 [x, y] v ↔ y ≠ 0 ∧ |v| < |y| ∧ 0 ≤ v * x ∧ ∃ k : ℤ, x = k * y + v :=
  (h.fn_eq (name := "mod") (pl := .infix) (by decide) _ _)
theorem fn_exp : I.fn 15 [x] v ↔ v = Real.exp x := (h.fn_eq (name := "exp") (pl := .function) (by decide) _ _)
theorem fn_root : I.fn 16 [x, y] v ↔ (0 < v ∧ y ≠ 0 ∧ v ^ y = x ∨ x = 0 ∧ 0 < y ∧ v = 0) :=
  (h.fn_eq (name := "root") (pl := .function) (by decide) _ _)
theorem fn_sqrt : I.fn 17 [x] v ↔ 0 ≤ x ∧ v = √x :=
  (h.fn_eq (name := "sqrt") (pl := .function) (by decide) _ _).trans
    (show (0 ≤ v ∧ v * v = x) ↔ _ from by
      constructor
      · rintro ⟨h1, rfl⟩
        exact ⟨mul_nonneg h1 h1, (Real.sqrt_mul_self h1).symm⟩
      · rintro ⟨h1, rfl⟩
        exact ⟨Real.sqrt_nonneg x, Real.mul_self_sqrt h1⟩)
theorem fn_log : I.fn 18 [x, y] v ↔ 0 < y ∧ y ≠ 1 ∧ y ^ v = x :=
  (h.fn_eq (name := "log") (pl := .function) (by decide) _ _)
theorem fn_ln : I.fn 19 [x] v ↔ 0 < x ∧ v = Real.log x :=
  (h.fn_eq (name := "ln") (pl := .function) (by decide) _ _).trans
    (show Real.exp v = x ↔ _ from by
      constructor
      · rintro rfl
        exact ⟨Real.exp_pos v, (Real.log_exp v).symm⟩
      · rintro ⟨h1, rfl⟩
        exact Real.exp_log h1)
theorem fn_sin : I.fn 22 [x] v ↔ v = Real.sin x := (h.fn_eq (name := "sin") (pl := .function) (by decide) _ _)
theorem fn_cos : I.fn 23 [x] v ↔ v = Real.cos x := (h.fn_eq (name := "cos") (pl := .function) (by decide) _ _)
theorem fn_tan : I.fn 24 [x] v ↔ Real.cos x ≠ 0 ∧ v = Real.sin x / Real.cos x :=
  (h.fn_eq (name := "tan") (pl := .function) (by decide) _ _).trans
    (show (Real.cos x ≠ 0 ∧ v * Real.cos x = Real.sin x) ↔ _ from
      and_congr_right fun hy => (eq_div_iff hy).symm)
theorem fn_asin : I.fn 25 [x] v ↔ -1 ≤ x ∧ x ≤ 1 ∧ v = Real.arcsin x :=
  (h.fn_eq (name := "asin") (pl := .function) (by decide) _ _).trans
    (show (-(Real.pi / 2) ≤ v ∧ v ≤ Real.pi / 2 ∧ Real.sin v = x) ↔ _ from by
      constructor
      · rintro ⟨h1, h2, rfl⟩
        exact ⟨Real.neg_one_le_sin v, Real.sin_le_one v, (Real.arcsin_sin h1 h2).symm⟩
      · rintro ⟨h1, h2, rfl⟩
        exact ⟨Real.neg_pi_div_two_le_arcsin x, Real.arcsin_le_pi_div_two x, Real.sin_arcsin h1 h2⟩)
theorem fn_acos : I.fn 26 [x] v ↔ -1 ≤ x ∧ x ≤ 1 ∧ v = Real.arccos x :=
  (h.fn_eq (name := "acos") (pl := .function) (by decide) _ _).trans
    (show (0 ≤ v ∧ v ≤ Real.pi ∧ Real.cos v = x) ↔ _ from by
      constructor
      · rintro ⟨h1, h2, rfl⟩
        exact ⟨Real.neg_one_le_cos v, Real.cos_le_one v, (Real.arccos_cos h1 h2).symm⟩
      · rintro ⟨h1, h2, rfl⟩
        exact ⟨Real.arccos_nonneg x, Real.arccos_le_pi x, Real.cos_arccos h1 h2⟩)
theorem fn_atan : I.fn 27 [x] v ↔ v = Real.arctan x :=
  (h.fn_eq (name := "atan") (pl := .function) (by decide) _ _).trans
    (show (-(Real.pi / 2) < v ∧ v < Real.pi / 2 ∧ Real.sin v = x * Real.cos v) ↔ _ from by
      constructor
      · rintro ⟨h1, h2, h3⟩
        have hc : Real.cos v ≠ 0 := (Real.cos_pos_of_mem_Ioo ⟨h1, h2⟩).ne'
        have : Real.tan v = x := by rw [Real.tan_eq_sin_div_cos, h3]; field_simp
        rw [← this, Real.arctan_tan h1 h2]
      · rintro rfl
        refine ⟨Real.neg_pi_div_two_lt_arctan x, Real.arctan_lt_pi_div_two x, ?_⟩
        have hc := Real.cos_arctan_pos x
        have := Real.tan_arctan x
        rw [Real.tan_eq_sin_div_cos, div_eq_iff hc.ne'] at this
        exact this)
theorem fn_max : I.fn 34 l v ↔ v ∈ l ∧ ∀ y ∈ l, y ≤ v := (h.fn_eq (name := "max") (pl := .function) (by decide) _ _)
theorem fn_min : I.fn 35 l v ↔ v ∈ l ∧ ∀ y ∈ l, v ≤ y := (h.fn_eq (name := "min") (pl := .function) (by decide) _ _)
theorem fn_sum : I.fn 43 l v ↔ v = l.sum := (h.fn_eq (name := "sum") (pl := .function) (by decide) _ _)
theorem fn_prod : I.fn 44 l v ↔ v = l.prod := (h.fn_eq (name := "prod") (pl := .function) (by decide) _ _)
theorem fn_avg : I.fn 45 l v ↔ l ≠ [] ∧ v = l.sum / l.length :=
  (h.fn_eq (name := "avg") (pl := .function) (by decide) _ _).trans
    (show (l ≠ [] ∧ v * l.length = l.sum) ↔ _ from and_congr_right fun hl => by
      have : (l.length : ℝ) ≠ 0 := by
        simpa using hl
      exact (eq_div_iff this).symm)
theorem fn_count : I.fn 73 l v ↔ v = l.length := (h.fn_eq (name := "count") (pl := .function) (by decide) _ _)
theorem fn_e : I.fn 53 [] v ↔ v = Real.exp 1 := (h.fn_eq (name := "e") (pl := .function) (by decide) _ _)

end

/-! ## Powers -/

/-- Where powers are defined. -/
def PowOk (x y : ℝ) : Prop := 0 < x ∨ x = 0 ∧ 0 < y ∨ x < 0 ∧ ∃ n : ℤ, y = n

theorem power_iff {x y v : ℝ} : Power x y v ↔ PowOk x y ∧ v = x ^ y := by
  unfold Power PowOk
  constructor
  · rintro (⟨h1, rfl⟩ | ⟨rfl, h1, rfl⟩ | ⟨h1, n, rfl, rfl⟩)
    · exact ⟨.inl h1, rfl⟩
    · exact ⟨.inr (.inl ⟨rfl, h1⟩), (Real.zero_rpow h1.ne').symm⟩
    · refine ⟨?_, (Real.rpow_intCast x n).symm⟩
      rcases lt_or_gt_of_ne h1 with h | h
      · exact .inr (.inr ⟨h, n, rfl⟩)
      · exact .inl h
  · rintro ⟨h1 | ⟨rfl, h1⟩ | ⟨h1, n, rfl⟩, rfl⟩
    · exact .inl ⟨h1, rfl⟩
    · exact .inr (.inl ⟨rfl, h1, Real.zero_rpow h1.ne'⟩)
    · exact .inr (.inr ⟨h1.ne, n, rfl, Real.rpow_intCast x n⟩)

/-! ## Values -/

theorem Vals.iff {cs : List (Tree ℝ)} {env : Str → ℝ} {vs : List ℝ} :
    Vals I cs env vs ↔ List.Forall₂ (fun c v => Val I c env v) cs vs := by
  induction cs generalizing vs with
  | nil => simp [Vals]
  | cons c cs ih =>
    simp only [Vals, ih]
    constructor
    · rintro ⟨v, rest, rfl, h1, h2⟩
      exact .cons h1 h2
    · intro h
      cases h with
      | cons h1 h2 => exact ⟨_, _, rfl, h1, h2⟩

theorem slope_iff {cs : List (Tree ℝ)} {env : Str → ℝ} {v : ℝ} :
    Slope I cs env v ↔ ∃ f x k i, cs = [f, .var x k i] ∧ ∃ g : ℝ → ℝ,
      (∀ᶠ y in 𝓝 (env x), Val I f (Function.update env x y) (g y)) ∧ HasDerivAt g v (env x) := by
  constructor
  · intro h
    unfold Slope at h
    split at h
    · exact ⟨_, _, _, _, rfl, h⟩
    · exact h.elim
  · rintro ⟨f, x, k, i, rfl, h⟩
    unfold Slope
    exact h

theorem Val.unique (hI : ∀ k args v w, I.fn k args v → I.fn k args w → v = w) (t : Tree ℝ) :
    ∀ {env : Str → ℝ} {v w : ℝ}, Val I t env v → Val I t env w → v = w := by
  induction t using Tree.induct with
  | hc c i => intro env v w h1 h2; simp only [Val] at h1 h2; rw [h1, h2]
  | hv n x i => intro env v w h1 h2; simp only [Val] at h1 h2; rw [h1, h2]
  | ho o cs i ih =>
    intro env v w h1 h2
    simp only [Val] at h1 h2
    rcases h1 with ⟨e, h1⟩ | ⟨e, vs, h1, h1'⟩
    · rcases h2 with ⟨-, h2⟩ | ⟨e', -⟩
      · obtain ⟨f, x, k, i, rfl, g, g1, g2⟩ := slope_iff.1 h1
        obtain ⟨f', x', k', i', he, g', g1', g2'⟩ := slope_iff.1 h2
        cases he
        have : g =ᶠ[𝓝 (env x)] g' := by
          filter_upwards [g1, g1'] with y hy hy'
          exact ih f (by simp) hy hy'
        exact g2.unique (g2'.congr_of_eventuallyEq this)
      · exact absurd e e'
    · rcases h2 with ⟨e', -⟩ | ⟨-, ws, h2, h2'⟩
      · exact absurd e' e
      · have : vs = ws := by
          rw [Vals.iff] at h1 h2
          clear h1' h2'
          induction h1 generalizing ws with
          | nil => cases h2; rfl
          | cons g1 _ ihl =>
            cases h2 with
            | cons g2 h2 =>
              rw [ih _ (by simp) g1 g2, ihl (fun c hc => ih c (by simp [hc])) _ h2]
        subst this
        exact hI _ _ _ _ h1' h2'

theorem Vals.unique (hI : ∀ k args v w, I.fn k args v → I.fn k args w → v = w) {cs : List (Tree ℝ)}
    {env : Str → ℝ} {vs ws : List ℝ} (h1 : Vals I cs env vs) (h2 : Vals I cs env ws) : vs = ws := by
  rw [Vals.iff] at h1 h2
  induction h1 generalizing ws with
  | nil => cases h2; rfl
  | cons g1 _ ih =>
    cases h2 with
    | cons g2 h2 => rw [Val.unique hI _ g1 g2, ih h2]

theorem Vals.append {a b : List (Tree ℝ)} {env : Str → ℝ} {vs : List ℝ} :
    Vals I (a ++ b) env vs ↔ ∃ u w, vs = u ++ w ∧ Vals I a env u ∧ Vals I b env w := by
  induction a generalizing vs with
  | nil => simp [Vals]
  | cons c a ih =>
    simp only [List.cons_append, Vals, ih]
    constructor
    · rintro ⟨v, rest, rfl, h1, u, w, rfl, h2, h3⟩
      exact ⟨v :: u, w, rfl, ⟨v, u, rfl, h1, h2⟩, h3⟩
    · rintro ⟨_, w, rfl, ⟨v, u, rfl, h1, h2⟩, h3⟩
      exact ⟨v, u ++ w, rfl, h1, u, w, rfl, h2, h3⟩

theorem Vals.single {c : Tree ℝ} {env : Str → ℝ} {vs : List ℝ} :
    Vals I [c] env vs ↔ ∃ v, vs = [v] ∧ Val I c env v := by
  simp only [Vals]
  constructor
  · rintro ⟨v, _, rfl, h, rfl⟩; exact ⟨v, rfl, h⟩
  · rintro ⟨v, rfl, h⟩; exact ⟨v, [], rfl, h, rfl⟩

/-- Comparison of reals. -/
noncomputable abbrev eqR : ℝ → ℝ → Bool := realDoubles.eq

theorem eqR_iff {a b : ℝ} : eqR a b = true ↔ a = b := by
  simp [eqR, realDoubles]

theorem Equal.val {a b : Tree ℝ} (h : Equal eqR a b) :
    ∀ {env : Str → ℝ} {v : ℝ}, Val I b env v → Val I a env v := by
  induction h with
  | refl => exact fun h => h
  | const h => intro env v hv; simp only [Val] at hv ⊢; rw [hv, eqR_iff.1 h]
  | var => exact fun h => h
  | @op o p cs ds i j hl hid hc ih =>
    intro env v hv
    simp only [Val] at hv ⊢
    rw [hid]
    rcases hv with ⟨e, hv⟩ | ⟨e, vs, h1, h2⟩
    · refine .inl ⟨e, ?_⟩
      obtain ⟨f, x, k, i, rfl, g, g1, g2⟩ := slope_iff.1 hv
      match cs, hl, hc, ih with
      | [a, b], hl, hc, ih =>
        have hb := hc 1 (by simp)
        simp only [List.getElem_cons_succ, List.getElem_cons_zero] at hb
        obtain ⟨k', i', rfl⟩ : ∃ k' i', b = .var x k' i' := by
          cases hb with
          | refl => exact ⟨_, _, rfl⟩
          | var => exact ⟨_, _, rfl⟩
        refine slope_iff.2 ⟨a, x, k', i', rfl, g, ?_, g2⟩
        filter_upwards [g1] with y hy
        exact ih 0 (by simp) hy
    · refine .inr ⟨e, vs, ?_, h2⟩
      rw [Vals.iff] at h1 ⊢
      obtain ⟨hl', h1⟩ := forall2_iff.1 h1
      exact forall2_iff.2 ⟨hl.trans hl', fun k hk => ih k hk (h1 k (hl ▸ hk))⟩

theorem Equal.symm {a b : Tree ℝ} (h : Equal eqR a b) : Equal eqR b a := by
  induction h with
  | refl => exact .refl
  | const h => exact .const (eqR_iff.2 (eqR_iff.1 h).symm)
  | var => exact .var
  | op hl hid hc ih => exact .op hl.symm hid.symm fun k hk => ih k (hl ▸ hk)

/-! ## Replacing a part -/

/-- Replacing a part by one that has the same values, where it has one. -/
theorem Replaced.val {u s w u' : Tree ℝ} {p : List Nat} (h : Replaced u p s w u')
    (hs : ∀ n x i, s ≠ .var n x i) (hw : ∀ env v, Val I s env v → Val I w env v) :
    ∀ {env : Str → ℝ} {v : ℝ}, Val I u env v → Val I u' env v := by
  induction h with
  | here => exact fun h => hw _ _ h
  | @child o cs ds p s c c' w i hr ih =>
    intro env v hv
    replace ih := @ih hs hw
    simp only [Val] at hv ⊢
    rcases hv with ⟨e, hv⟩ | ⟨e, vs, h1, h2⟩
    · refine .inl ⟨e, ?_⟩
      obtain ⟨f, x, k, j, he, g, g1, g2⟩ := slope_iff.1 hv
      cases cs with
      | nil =>
        simp only [List.nil_append] at he ⊢
        cases he
        refine slope_iff.2 ⟨c', x, k, j, rfl, g, ?_, g2⟩
        filter_upwards [g1] with y hy
        exact ih hy
      | cons b cs =>
        simp only [List.cons_append, List.cons.injEq] at he
        obtain ⟨rfl, he⟩ := he
        cases cs with
        | nil =>
          simp only [List.nil_append, List.cons.injEq] at he
          obtain ⟨rfl, rfl⟩ := he
          cases hr
          exact absurd rfl (hs _ _ _)
        | cons b' cs => simp at he
    · refine .inr ⟨e, vs, ?_, h2⟩
      rw [Vals.append] at h1 ⊢
      obtain ⟨a, b, rfl, h3, h4⟩ := h1
      refine ⟨a, b, rfl, h3, ?_⟩
      obtain ⟨v, rest, rfl, h5, h6⟩ := h4
      exact ⟨v, rest, rfl, ih h5, h6⟩

/-- Replacing a part by one that has no other values. -/
theorem Replaced.val_eq (hI : ∀ k args v w, I.fn k args v → I.fn k args w → v = w) {u s w u' : Tree ℝ}
    {p : List Nat} (h : Replaced u p s w u') (hs : ∀ n x i, s ≠ .var n x i)
    (hw : ∀ env v v', Val I s env v → Val I w env v' → v = v') :
    ∀ {env : Str → ℝ} {v v' : ℝ}, Val I u env v → Val I u' env v' → v = v' := by
  induction h with
  | here => exact fun h h' => hw _ _ _ h h'
  | @child o cs ds p s c c' w i hr ih =>
    intro env v v' hv hv'
    replace ih := @ih hs hw
    simp only [Val] at hv hv'
    rcases hv with ⟨e, hv⟩ | ⟨e, vs, h1, h2⟩
    · rcases hv' with ⟨-, hv'⟩ | ⟨e', -⟩
      · obtain ⟨f, x, k, j, he, g, g1, g2⟩ := slope_iff.1 hv
        obtain ⟨f', x', k', j', he', g', g1', g2'⟩ := slope_iff.1 hv'
        cases cs with
        | nil =>
          simp only [List.nil_append] at he he'
          cases he
          cases he'
          have : g =ᶠ[𝓝 (env x)] g' := by
            filter_upwards [g1, g1'] with y hy hy'
            exact ih hy hy'
          exact g2.unique (g2'.congr_of_eventuallyEq this)
        | cons b cs =>
          simp only [List.cons_append, List.cons.injEq] at he
          obtain ⟨rfl, he⟩ := he
          cases cs with
          | nil =>
            simp only [List.nil_append, List.cons.injEq] at he
            obtain ⟨rfl, rfl⟩ := he
            cases hr
            exact absurd rfl (hs _ _ _)
          | cons b' cs => simp at he
      · exact absurd e e'
    · rcases hv' with ⟨e', -⟩ | ⟨-, ws, h1', h2'⟩
      · exact absurd e' e
      · rw [Vals.append] at h1 h1'
        obtain ⟨a, b, rfl, h3, h4⟩ := h1
        obtain ⟨a', b', rfl, h3', h4'⟩ := h1'
        obtain ⟨v1, rest, rfl, h5, h6⟩ := h4
        obtain ⟨v1', rest', rfl, h5', h6'⟩ := h4'
        rw [Vals.unique hI h3 h3', ih h5 h5', Vals.unique hI h6 h6'] at h2
        exact hI _ _ _ _ h2 h2'

end Verif
