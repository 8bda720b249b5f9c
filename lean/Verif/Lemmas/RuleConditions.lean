import Verif.Lemmas.RulePatterns

/-!
# Conditions of rules: what follows from the program's check
-/

namespace Verif.Rules
open Verif Topology
variable {I : Interp} {ε : Type}

/-- No operator of the constraint language occurs. -/
def Quiet (t : Tree ℝ) : Prop := TreeProps.AllOps (fun o => o.id ∉ constraintIds) t

theorem Val.quiet (hI : I.Right) (t : Tree ℝ) : ∀ {env : Str → ℝ} {v : ℝ}, Val I t env v → Quiet t := by
  induction t using Tree.induct with
  | hc c i => intro env v _; exact TreeProps.AllOps.const
  | hv n x i => intro env v _; exact TreeProps.AllOps.var
  | ho o cs i ih =>
    intro env v h
    simp only [Val] at h
    rcases h with ⟨e, h⟩ | ⟨e, vs, h1, h2⟩
    · obtain ⟨f, x, k, j, rfl, g, g1, -⟩ := slope_iff.1 h
      refine TreeProps.AllOps.op ?_ ?_
      · rw [e, hI.deriv_eq]; decide
      · simp only [List.mem_cons, List.not_mem_nil, or_false, forall_eq_or_imp, forall_eq]
        obtain ⟨y, hy⟩ := g1.exists
        exact ⟨ih f (by simp) hy, TreeProps.AllOps.var⟩
    · refine TreeProps.AllOps.op (fun hk => hI.silent_eq hk _ _ h2) fun c hc => ?_
      obtain ⟨h3, -⟩ := (vals_iff' hI).1 h1
      obtain ⟨w, hw⟩ := h3 c hc
      exact ih c hc hw

theorem D.quiet (hI : I.Right) {t : Tree ℝ} {env : Str → ℝ} (h : D I t env) : Quiet t :=
  Val.quiet hI t h.choose_spec

theorem reduce_type {t : Tree ℝ} (h : Quiet t) (cb : List (Tree ℝ) → Res ℝ) :
    reduceOps (· == typeOp) cb t = .ok t :=
  reduceOps_plain cb t (AllOps.imp (fun o ho => by
    rw [beq_eq_false_iff_ne]
    rintro rfl
    exact ho (by decide)) h)

theorem reduce_equal {t : Tree ℝ} (h : Quiet t) (cb : List (Tree ℝ) → Res ℝ) :
    reduceOps (· == equalOp) cb t = .ok t :=
  reduceOps_plain cb t (AllOps.imp (fun o ho => by
    rw [beq_eq_false_iff_ne]
    rintro rfl
    exact ho (by decide)) h)

/-- The operator with an id. -/
@[irreducible] def opAt (k : Nat) : Op := propBuiltin.getD k typeOp

theorem opAt_eq {k : Nat} {o : Op} (h : propBuiltin[k]? = some o) : o = opAt k := by
  unfold opAt
  simp [List.getD, h]

section
variable {arith : Op → List ℝ → Except ε ℝ} {ve : ε}

theorem realChecker_iff {c : Tree ℝ} : realChecker arith ve c = true ↔ propChecker realDoubles arith ve c = .ok true := by
  simp [realChecker]

theorem opAt_t60 : (opAt 60 == typeOp) = false := by decide +kernel
theorem opAt_e60 : (opAt 60 == equalOp) = false := by decide +kernel
theorem opAt_i60 : (opAt 60).id = 60 := by decide +kernel
theorem opAt_t58 : (opAt 58 == typeOp) = true := by decide +kernel
theorem opAt_t62 : (opAt 62 == typeOp) = false := by decide +kernel
theorem opAt_e62 : (opAt 62 == equalOp) = false := by decide +kernel
theorem opAt_i62 : (opAt 62).id = 62 := by decide +kernel
theorem opAt_t61 : (opAt 61 == typeOp) = false := by decide +kernel
theorem opAt_e61 : (opAt 61 == equalOp) = false := by decide +kernel
theorem opAt_i61 : (opAt 61).id = 61 := by decide +kernel
theorem opAt_t64 : (opAt 64 == typeOp) = false := by decide +kernel
theorem opAt_e64 : (opAt 64 == equalOp) = false := by decide +kernel
theorem opAt_i64 : (opAt 64).id = 64 := by decide +kernel
theorem opAt_t69 : (opAt 69 == typeOp) = false := by decide +kernel
theorem opAt_e69 : (opAt 69 == equalOp) = false := by decide +kernel
theorem opAt_i69 : (opAt 69).id = 69 := by decide +kernel
theorem opAt_t59 : (opAt 59 == typeOp) = false := by decide +kernel
theorem opAt_e59 : (opAt 59 == equalOp) = true := by decide +kernel
theorem opAt_t12 : (opAt 12 == typeOp) = false := by decide +kernel
theorem opAt_e12 : (opAt 12 == equalOp) = false := by decide +kernel
theorem opAt_i12 : (opAt 12).id = 12 := by decide +kernel
theorem opAt_t10 : (opAt 10 == typeOp) = false := by decide +kernel
theorem opAt_e10 : (opAt 10 == equalOp) = false := by decide +kernel
theorem opAt_i10 : (opAt 10).id = 10 := by decide +kernel

theorem propEval_60 {o : Op} (h : o.id = 60) (args : List ℝ) :
    propEvaluate realDoubles arith o args = binary (fun a b => realDoubles.bool (realDoubles.eq a b)) args := by
  unfold propEvaluate
  rw [h]
  rfl
theorem propEval_61 {o : Op} (h : o.id = 61) (args : List ℝ) :
    propEvaluate realDoubles arith o args = binary (fun a b => realDoubles.bool (!realDoubles.eq a b)) args := by
  unfold propEvaluate
  rw [h]
  rfl
theorem propEval_62 {o : Op} (h : o.id = 62) (args : List ℝ) :
    propEvaluate realDoubles arith o args = .ok (realDoubles.ofNat 2) := by
  unfold propEvaluate
  rw [h]
  rfl
theorem propEval_64 {o : Op} (h : o.id = 64) (args : List ℝ) :
    propEvaluate realDoubles arith o args = .ok (realDoubles.ofNat 4) := by
  unfold propEvaluate
  rw [h]
  rfl
theorem propEval_69 {o : Op} (h : o.id = 69) (args : List ℝ) :
    propEvaluate realDoubles arith o args =
      binary (fun a b => realDoubles.bool (!realDoubles.eq a (realDoubles.ofNat 0) || !realDoubles.eq b (realDoubles.ofNat 0))) args := by
  unfold propEvaluate
  rw [h]
  rfl

theorem check_isConst {a : Tree ℝ} {i j k : Nat} (ha : Quiet a)
    (h : realChecker arith ve (.op (opAt 60) [.op (opAt 58) [a] i, .op (opAt 62) [] j] k) = true) :
    ∃ c l, a = .const c l := by
  rw [realChecker_iff] at h
  simp only [propChecker, Bool.false_eq_true, if_false, if_true, reduceOps, reduceOpsList, reduce_type ha, opAt_t60, opAt_e60, opAt_t58, opAt_t62, opAt_e62, Res.pure_eq, typeEval,
    treeReduce, reduceArgs, propEval_60 opAt_i60, propEval_62 opAt_i62, binary, Doubles.bool, Res.bind_ok] at h
  cases a with
  | const c l => exact ⟨c, l, rfl⟩
  | var => simp [realDoubles, Doubles.kind] at h
  | op => simp [realDoubles, Doubles.kind] at h

theorem check_notOp {a : Tree ℝ} {i j k : Nat} (ha : Quiet a)
    (h : realChecker arith ve (.op (opAt 61) [.op (opAt 58) [a] i, .op (opAt 64) [] j] k) = true) :
    (∃ c l, a = .const c l) ∨ ∃ n x l, a = .var n x l := by
  rw [realChecker_iff] at h
  simp only [propChecker, Bool.false_eq_true, if_false, if_true, reduceOps, reduceOpsList, reduce_type ha, opAt_t61, opAt_e61, opAt_t58, opAt_t64, opAt_e64, Res.pure_eq, typeEval,
    treeReduce, reduceArgs, propEval_61 opAt_i61, propEval_64 opAt_i64, binary, Doubles.bool, Res.bind_ok] at h
  cases a with
  | const c l => exact .inl ⟨c, l, rfl⟩
  | var => exact .inr ⟨_, _, _, rfl⟩
  | op => simp [realDoubles, Doubles.kind] at h

theorem check_opposite {a b : Tree ℝ} {i j k l m : Nat} (ha : Quiet a) (hb : Quiet b)
    (h : realChecker arith ve (.op (opAt 69) [.op (opAt 59) [b, .op (opAt 12) [a] i] j,
      .op (opAt 59) [a, .op (opAt 12) [b] k] l] m) = true) :
    treeEquals eqR b (.op (opAt 12) [a] i) = true ∨ treeEquals eqR a (.op (opAt 12) [b] k) = true := by
  rw [realChecker_iff] at h
  simp only [propChecker, Bool.false_eq_true, if_false, if_true, reduceOps, reduceOpsList, reduce_type ha, reduce_type hb, reduce_equal ha, reduce_equal hb,
    opAt_t69, opAt_e69, opAt_t59, opAt_e59, opAt_t12, opAt_e12, opAt_i12, Res.pure_eq, equalEval,
    treeReduce, reduceArgs, propEval_69 opAt_i69, binary, Doubles.bool, Res.bind_ok] at h
  by_contra hc
  simp only [not_or, Bool.not_eq_true] at hc
  simp only [hc.1, hc.2] at h
  simp [realDoubles] at h

theorem means_val (hI : I.Right) (hf : Follows I arith) {u : Tree ℝ} {a : ℝ}
    (h : Means (propEvaluate realDoubles arith) (fun _ => none) u a) :
    ∀ {env : Str → ℝ} {w : ℝ}, Val I u env w → a = w := by
  induction h with
  | const => intro env w h; simp only [Val] at h; exact h.symm
  | var h => cases h
  | @op o cs vs i v hl hc hv ih =>
    intro env w h
    simp only [Val] at h
    rcases h with ⟨e, h⟩ | ⟨e, ws, h1, h2⟩
    · obtain ⟨f, x, k, j, rfl, -⟩ := slope_iff.1 h
      have := hc 1 (by simp)
      simp only [List.getElem_cons_succ, List.getElem_cons_zero] at this
      cases this with
      | var h => cases h
    · have : vs = ws := by
        rw [Vals.iff] at h1
        obtain ⟨hl', h1⟩ := forall2_iff.1 h1
        exact List.ext_getElem (hl.symm.trans hl') fun k hk _ => ih k (hl ▸ hk) (h1 k (hl ▸ hk))
      subst this
      unfold propEvaluate at hv
      split at hv
      · cases hr : arith o vs with
        | ok v' =>
          rw [hr] at hv
          cases hv
          exact hf _ _ _ _ hr h2
        | error e' => rw [hr] at hv; cases hv
      · rename_i hn
        by_cases hk : o.id ∈ constraintIds
        · exact absurd h2 (hI.silent_eq hk _ _)
        · exfalso
          simp only [constraintIds, List.mem_cons, List.not_mem_nil, or_false, not_or] at hk
          simp only [numArithOps] at hn
          simp only [numArithOps] at hv
          have : o.id - 58 ≥ 15 := by omega
          split at hv <;> first | omega | cases hv

theorem check_even (hI : I.Right) (hf : Follows I arith) {u : Tree ℝ} {i j k l : Nat}
    {env : Str → ℝ} {w : ℝ} (hu : Val I u env w)
    (h : realChecker arith ve (.op (opAt 60) [.op (opAt 10) [u, .const 2 i] j, .const 0 k] l) = true) :
    ∃ n : ℤ, w = 2 * n := by
  have hq := Val.quiet hI u hu
  rw [realChecker_iff] at h
  simp only [propChecker, Bool.false_eq_true, if_false, if_true, reduceOps, reduceOpsList, reduce_type hq, reduce_equal hq, opAt_t60, opAt_e60, opAt_t10, opAt_e10, opAt_i10, Res.pure_eq,
    Res.bind_ok] at h
  split at h
  · rename_i v hv
    have hm := (TreeProps.C24_value _ _ _ _).1 hv
    cases hm with
    | @op _ _ vs _ _ hl hc hv2 =>
      match vs, hl, hc with
      | [p, q], hl, hc =>
        have h0 := hc 0 (by simp)
        have h1 := hc 1 (by simp)
        simp only [List.getElem_cons_zero, List.getElem_cons_succ] at h0 h1
        cases h1
        cases h0 with
        | @op _ _ us _ _ hl' hc' hv3 =>
          match us, hl', hc' with
          | [x, y], hl', hc' =>
            have g0 := hc' 0 (by simp)
            have g1 := hc' 1 (by simp)
            simp only [List.getElem_cons_zero, List.getElem_cons_succ] at g0 g1
            cases g1
            obtain rfl := means_val hI hf g0 hu
            have hp : arith (opAt 10) [x, 2] = .ok p := by
              unfold propEvaluate at hv3
              rw [opAt_i10, if_pos (by decide)] at hv3
              cases hr : arith (opAt 10) [x, 2] with
              | ok v' => rw [hr] at hv3; cases hv3; rfl
              | error e => rw [hr] at hv3; cases hv3
            have hp0 : p = 0 := by
              by_contra hne
              rw [propEval_60 opAt_i60] at hv2
              simp only [binary, Doubles.bool] at hv2
              simp [realDoubles, hne] at hv2
              simp [← hv2, realDoubles] at h
            subst hp0
            -- the remainder of `x`
            let n : ℤ := if 0 ≤ x then ⌊x / 2⌋ else ⌈x / 2⌉
            have hfn : I.fn 10 [x, 2] (x - n * 2) := by
              rw [fn_mod hI]
              refine ⟨two_ne_zero, ?_, ?_, n, by ring⟩
              · rw [abs_lt, abs_of_pos (by norm_num : (0 : ℝ) < 2)]
                by_cases hx : 0 ≤ x
                · simp only [n, hx, if_true]
                  have h1 := Int.floor_le (x / 2)
                  have h2 := Int.lt_floor_add_one (x / 2)
                  constructor <;> linarith
                · simp only [n, hx, if_false]
                  have h1 := Int.le_ceil (x / 2)
                  have h2 := Int.ceil_lt_add_one (x / 2)
                  constructor <;> linarith
              · by_cases hx : 0 ≤ x
                · simp only [n, hx, if_true]
                  have h1 := Int.floor_le (x / 2)
                  exact mul_nonneg (by linarith) hx
                · simp only [n, hx, if_false]
                  have h1 := Int.le_ceil (x / 2)
                  exact mul_nonneg_of_nonpos_of_nonpos (by linarith) (by linarith)
            have := hf (opAt 10) _ _ _ hp (by rw [opAt_i10]; exact hfn)
            exact ⟨n, by linarith⟩
  · cases h
  · cases h
  · cases h

end
end Verif.Rules
