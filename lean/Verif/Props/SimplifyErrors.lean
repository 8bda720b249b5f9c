import Verif.Props.SimplifyValues

/-!
# C77: errors are reported

Without loaded rules `simplify` reports an error exactly if a part of the expression without variables has no
value.  With rules this fails (`Verif.SimplifyRuns.C77_hidden`); what is left of it is that an error is never
made up: the tree folded last contains the reported node.
-/

namespace Verif.SimplifyErrors
open Verif TreeProps SimplifyProps
variable {V ε : Type}

/-- After constant folding without an error all parts without variables have values. -/
theorem reduceConst_all (L : Op → List V → Except ε V) (ve : ε) (t : Tree V) : ∀ p,
    (reduceConst L ve t p).2 = none → ∀ q ∈ t.postorder p, Ground q.2 → ∃ v, Means L (fun _ => none) q.2 v := by
  refine Tree.rec
    (motive_1 := fun t => ∀ p, (reduceConst L ve t p).2 = none → ∀ q ∈ t.postorder p, Ground q.2 →
      ∃ v, Means L (fun _ => none) q.2 v)
    (motive_2 := fun l => ∀ p k, (reduceConsts L ve l p k).2 = none → ∀ q ∈ Tree.postorders p k l, Ground q.2 →
      ∃ v, Means L (fun _ => none) q.2 v)
    ?_ ?_ ?_ ?_ ?_ t
  · intro v i p _ q hq _
    simp only [Tree.postorder, List.mem_singleton] at hq
    subst hq
    exact ⟨v, .const⟩
  · intro n x i p _ q hq hg
    simp only [Tree.postorder, List.mem_singleton] at hq
    subst hq
    cases hg
  · intro o cs i ih p h q hq hg
    by_cases h0 : countVars (.op o cs i) = 0
    · simp only [reduceConst, h0, if_true] at h
      have hs := treeReduce_spec L ve (.op o cs i) p
      cases hr : treeReduce L ve (.op o cs i) p with
      | error e => rw [hr] at h; cases h
      | ok v =>
        rw [hr] at hs
        exact hs.2 q hq
    · simp only [reduceConst, h0, if_false] at h
      simp only [Tree.postorder, List.mem_append, List.mem_singleton] at hq
      rcases hq with hq | rfl
      · exact ih p 0 h q hq hg
      · exact absurd (by rw [countVars_eq, (ground_iff _).1 hg]; rfl) h0
  · intro p k _ q hq
    cases hq
  · intro c cs h1 h2 p k h q hq hg
    simp only [Tree.postorders, List.mem_append] at hq
    have g1 := h1 (p ++ [k])
    simp only [reduceConsts] at h
    generalize reduceConst L ve c (p ++ [k]) = r at g1 h
    obtain ⟨c', e⟩ := r
    cases e with
    | some e => cases h
    | none =>
      rcases hq with hq | hq
      · exact g1 rfl q hq hg
      · exact h2 p (k + 1) h q hq hg

/-- The result of the last step, `tree_reduce_constant_subtrees`. -/
theorem fold_spec (M : Machine V ε) (t : Tree V) :
    (∃ u, M.fold t = .ok (.ok u) ∧ u = (reduceConst M.arith M.varErr t []).1 ∧
      (reduceConst M.arith M.varErr t []).2 = none) ∨
    ∃ e q n, M.fold t = .ok (.error (.listener e, n.tok)) ∧ (q, n) ∈ t.postorder [] ∧ Ground n ∧
      Blame M.arith M.varErr n e := by
  unfold Machine.fold
  dsimp only
  cases he : (reduceConst M.arith M.varErr t []).2 with
  | none => exact .inl ⟨_, rfl, rfl, rfl⟩
  | some e =>
    obtain ⟨e, p⟩ := e
    obtain ⟨n, h1, h2, h3⟩ := C25_error _ _ _ _ _ he
    obtain ⟨q, n', g1, g2, g3, -⟩ := reduceConst_error _ _ _ _ _ _ he
    rw [List.nil_append] at g1
    subst g1
    refine .inr ⟨e, p, n', ?_, ?_⟩
    · simp only [errTok, g2]
      rfl
    · have : n' = n := by
        have h4 : t.deref p = some n := by
          obtain ⟨q', e1, e2⟩ := mem_postorder _ _ _ h1
          rw [List.nil_append] at e1
          rw [e1]
          exact e2
        rw [g3] at h4
        exact Option.some.inj h4
      rw [this]
      exact ⟨h1, h2, h3⟩

/-- **C77** (partial: without loaded rules): a part of the expression without variables and without a value leads to an
error, and only that does.  The error is one such a part is to blame for, and is reported at its token; without an
error the result has the values of the expression. -/
theorem C77_unloaded_partial (M : Machine V ε) (t : Tree V) :
    (∃ u, M.simplify noRules t = .ok (.ok u) ∧ (∀ σ v, Means M.arith σ u v ↔ Means M.arith σ t v) ∧
      ∀ q ∈ t.postorder [], Ground q.2 → ∃ v, Means M.arith (fun _ => none) q.2 v) ∨
    ∃ e q n, M.simplify noRules t = .ok (.error (.listener e, n.tok)) ∧ (q, n) ∈ t.postorder [] ∧ Ground n ∧
      Blame M.arith M.varErr n e ∧ ∀ v, ¬ Means M.arith (fun _ => none) n v := by
  have hs : M.simplify noRules t = M.fold t := rfl
  rw [hs]
  rcases fold_spec M t with ⟨u, h1, rfl, h2⟩ | ⟨e, q, n, h1, h2, h3, h4⟩
  · exact .inl ⟨_, h1, C25_value _ _ _, reduceConst_all _ _ _ _ h2⟩
  · exact .inr ⟨e, q, n, h1, h2, h3, h4, fun v => h4.not_means⟩

/-- **C77** (partial as above): an expression without variables is replaced by its value, or has none and leads to an error. -/
theorem C77_ground_partial (M : Machine V ε) (t : Tree V) (ht : Ground t) :
    (∃ v i, Means M.arith (fun _ => none) t v ∧ M.simplify noRules t = .ok (.ok (.const v i))) ∨
    (∀ v, ¬ Means M.arith (fun _ => none) t v) ∧ ∃ e i, M.simplify noRules t = .ok (.error (.listener e, i)) := by
  have hs : M.simplify noRules t = M.fold t := rfl
  have hc : countVars t = 0 := by rw [countVars_eq, (ground_iff _).1 ht]; rfl
  have hr : ∀ v, treeReduce M.arith M.varErr t [] = .ok v → reduceConst M.arith M.varErr t [] = (.const v t.tok, none) := by
    intro v hv
    cases t <;> simp only [reduceConst, hc, if_true, hv] <;> rfl
  rw [hs]
  cases hv : treeReduce M.arith M.varErr t [] with
  | ok v =>
    refine .inl ⟨v, t.tok, (C24_value _ _ _ _).1 hv, ?_⟩
    unfold Machine.fold
    rw [hr v hv]
    rfl
  | error e =>
    have hn : ∀ v, ¬ Means M.arith (fun _ => none) t v := by
      intro v h
      have := (C24_value M.arith M.varErr t v).2 h
      rw [hv] at this
      cases this
    refine .inr ⟨hn, ?_⟩
    rcases fold_spec M t with ⟨u, h1, -, h2⟩ | ⟨e, q, n, h1, -⟩
    · obtain ⟨v, h⟩ := reduceConst_all _ _ _ _ h2 _ (self_mem_postorder t []) ht
      exact absurd h (hn v)
    · exact ⟨e, n.tok, h1⟩

/-! ## With rules: errors out of nowhere -/

variable {I : Interp}

/-- The operators are evaluated wherever they have a value. -/
def Complete (I : Interp) (arith : Op → List ℝ → Except ε ℝ) : Prop :=
  ∀ (o : Op) (args : List ℝ) (v : ℝ), I.fn o.id args v → ∃ w, arith o args = .ok w

theorem means_val {arith : Op → List ℝ → Except ε ℝ} {ve : ε} (hf : Follows I arith) {t : Tree ℝ} {r v : ℝ} {env : Str → ℝ}
    (h : Means arith (fun _ => none) t r) (hv : Val I t env v) : r = v :=
  treeReduce_val (ve := ve) hf t ((C24_value arith ve t r).2 h) hv

theorem mem_postorders {n : Tree V} {q p : Path} : ∀ {cs : List (Tree V)} {k : Nat}, (q, n) ∈ Tree.postorders p k cs →
    ∃ c ∈ cs, ∃ k, (q, n) ∈ c.postorder (p ++ [k]) := by
  intro cs
  induction cs with
  | nil => intro k h; cases h
  | cons c cs ih =>
    intro k h
    simp only [Tree.postorders, List.mem_append] at h
    rcases h with h | h
    · exact ⟨c, by simp, k, h⟩
    · obtain ⟨c', h1, h2⟩ := ih h
      exact ⟨c', by simp [h1], h2⟩

/-- Nothing is to blame in an expression with a value. -/
theorem val_blameless {arith : Op → List ℝ → Except ε ℝ} {ve : ε} (hI : I.Right) (hf : Follows I arith) (hc : Complete I arith) (t : Tree ℝ) :
    ∀ {env : Str → ℝ} {v : ℝ}, Plain t → Val I t env v → ∀ p q n e, (q, n) ∈ t.postorder p → Ground n → ¬ Blame arith ve n e := by
  induction t using Tree.induct with
  | hc c i =>
    intro env v _ _ p q n e hq _ hb
    simp only [Tree.postorder, List.mem_singleton, Prod.mk.injEq] at hq
    obtain ⟨-, rfl⟩ := hq
    cases hb
  | hv m x i =>
    intro env v _ _ p q n e hq hg _
    simp only [Tree.postorder, List.mem_singleton, Prod.mk.injEq] at hq
    obtain ⟨-, rfl⟩ := hq
    cases hg
  | ho o cs i ih =>
    intro env v hp hv p q n e hq hg hb
    cases hp with
    | op ho hcs =>
      simp only [Val] at hv
      rcases hv with ⟨h, -⟩ | ⟨-, vs, h1, h2⟩
      · exact ho (h.trans hI.deriv_eq)
      · rw [Vals.iff] at h1
        simp only [Tree.postorder, List.mem_append, List.mem_singleton, Prod.mk.injEq] at hq
        rcases hq with hq | ⟨-, rfl⟩
        · obtain ⟨c, hc', k, hq⟩ : ∃ c ∈ cs, ∃ k, (q, n) ∈ c.postorder (p ++ [k]) := mem_postorders hq
          obtain ⟨w, hw⟩ : ∃ w, Val I c env w := by
            obtain ⟨k, hk, rfl⟩ := List.getElem_of_mem hc'
            exact ⟨vs[k]'(h1.length_eq ▸ hk), h1.get hk _⟩
          exact ih c hc' (hcs c hc') hw _ _ _ _ hq hg hb
        · cases hb with
          | op hl hm he =>
            rename_i rs
            have : rs = vs := by
              refine List.ext_getElem ?_ ?_
              · rw [← hl, h1.length_eq]
              · intro k h3 h4
                have hk : k < cs.length := by omega
                exact means_val (ve := ve) hf (hm k hk) (h1.get hk h4)
            rw [this] at he
            obtain ⟨w, hw⟩ := hc _ _ _ h2
            rw [hw] at he
            cases he

/-- **C77**, the other direction (partial: it does not hold for all of the shipped rules): if an expression without
derivatives has a value, simplification with the shipped rules reports no error of an evaluation.  If it does, then an expression on the
way still has the value, and one of the rules `unsoundRules` is applied to it, or one of the rules
`lossyRules`, after which it has no value any more. -/
theorem C77_spurious_partial (hI : I.Right) {arith : Op → List ℝ → Except ε ℝ} {ve : ε} (hf : Follows I arith) (hc : Complete I arith)
    {fuel : Nat} {t : Tree ℝ} (ht : Verif.AllOps (fun o n => BuiltIn o n ∧ o.id ≠ prime.id ∧ o.id ≠ deriv.id) t)
    {r : Except (SimpErr ε × Nat) (Tree ℝ)} (hr : Machine.simplify ⟨realDoubles, arith, ve, fuel⟩ realRules t = .ok r)
    (env : Str → ℝ) (v : ℝ) (hv : Val I t env v) :
    (∀ e i, r ≠ .error (.listener e, i)) ∨
    ∃ w w' p, Moves arith ve t w ∧ Val I w env v ∧ Move arith ve (some p) w w' ∧
      (p ∈ unsoundRules ∨ p ∈ lossyRules ∧ ∀ v', ¬ Val I w' env v') := by
  by_contra hcon
  rw [not_or] at hcon
  obtain ⟨hn, hno⟩ := hcon
  simp only [not_forall, not_not] at hn
  obtain ⟨e, i, rfl⟩ := hn
  apply hno
  rcases simplify_moves (ht.mono fun o n h => h.1) (ht.mono fun o n h => h.2.1) hr with ⟨e', i', h1, h2⟩ | ⟨w, y, h1, h2, h3⟩
  · cases h1
    rcases h2 with h2 | h2 <;> cases h2
  · cases y with
    | ok u => cases h3
    | error y =>
      cases h3
      rcases moves_value hI hf h1 env v hv with hw | ⟨a, b, p, g1, g2, g3, -, g5⟩
      · exfalso
        rcases fold_spec ⟨realDoubles, arith, ve, fuel⟩ w with ⟨u, h4, -⟩ | ⟨e', q, n, -, h5, h6, h7⟩
        · rw [h2] at h4
          cases h4
        · exact val_blameless hI hf hc w (moves_plain hI hf h1 (ht.mono fun o n h => h.2.2)) hw _ _ _ _ h5 h6 h7
      · exact ⟨a, b, p, g1, g2, g3, g5⟩

/-! ## Examples -/

section examples
open Shipped RuleProps

theorem standardArith_complete : Complete standard standardArith := by
  intro o args v h
  unfold standardArith
  rw [dif_pos ⟨v, h⟩]
  exact ⟨_, rfl⟩

/-- The hypotheses of `C77_spurious_partial` can be met, by `+--sin(x)`, which has a value everywhere. -/
example : Complete standard standardArith ∧ (∃ r, Machine.simplify ⟨realDoubles, standardArith, (), 4⟩ realRules signs = .ok r) ∧
    ∀ env, Val standard signs env (Real.sin (env ['x'])) := by
  refine ⟨standardArith_complete, ⟨_, simplify_signs _ _⟩, fun env => ?_⟩
  have hI := standard_right
  have hd := hI.deriv_eq
  have one : ∀ (o : Op) (c : Tree ℝ) (j : Nat) (x y : ℝ), o.id ≠ standard.deriv → Val standard c env x → standard.fn o.id [x] y →
      Val standard (.op o [c] j) env y := by
    intro o c j x y h1 h2 h3
    simp only [Val]
    exact .inr ⟨h1, [x], by simp [Vals, h2], h3⟩
  unfold signs
  refine one _ _ _ (Real.sin (env ['x'])) _ (by rw [hd]; decide) (one _ _ _ (-Real.sin (env ['x'])) _ (by rw [hd]; decide)
    (one _ _ _ (Real.sin (env ['x'])) _ (by rw [hd]; decide) (one _ _ _ (env ['x']) _ (by rw [hd]; decide) (by simp [Val]) ?_) ?_) ?_) ?_
  · exact (hI.fn_eq (name := "sin") (pl := .function) (by decide) _ _).2 rfl
  · exact (hI.fn_eq (name := "-") (pl := .prefix) (by decide) _ _).2 rfl
  · exact (hI.fn_eq (name := "-") (pl := .prefix) (by decide) _ _).2 (neg_neg _).symm
  · exact (hI.fn_eq (name := "+") (pl := .prefix) (by decide) _ _).2 rfl

/-- `x+1/0`, evaluated by an arithmetic that rejects everything: the division is to blame. -/
example : (⟨realDoubles, fun _ _ => .error 7, 0, 5⟩ : Machine ℝ Nat).simplify noRules
    (.op o4 [.var ['x'] 0 0, .op o7 [.const 1 2, .const 0 4] 3] 1) = .ok (.error (.listener 7, 3)) := by
  kernel_rfl

end examples

end Verif.SimplifyErrors
