import Verif.Lemmas.RealValue
import Verif.Lemmas.TreeUtil
import Verif.Spec.RuleSound

/-!
# Values after constant folding and the replacement of negative constants
-/

namespace Verif
open Topology
variable {I : Interp} {ε : Type} {arith : Op → List ℝ → Except ε ℝ} {ve : ε}

/-- Every value of `a` is one of `b`. -/
def Keeps (I : Interp) (a b : Tree ℝ) : Prop := ∀ env v, Val I a env v → Val I b env v

theorem Keeps.refl (a : Tree ℝ) : Keeps I a a := fun _ _ h => h

theorem Keeps.trans {a b c : Tree ℝ} (h1 : Keeps I a b) (h2 : Keeps I b c) : Keeps I a c :=
  fun env v h => h2 env v (h1 env v h)

/-- If operands keep their values, and variables stay as they are, the operation keeps its values. -/
theorem Keeps.op {o : Op} {cs ds : List (Tree ℝ)} {i j : Nat} (hv : List.Forall₂ (Keeps I) cs ds)
    (hx : List.Forall₂ (fun c d => ∀ n x k, c = Tree.var n x k → d = .var n x k) cs ds) :
    Keeps I (.op o cs i) (.op o ds j) := by
  intro env v h
  simp only [Val] at h ⊢
  rcases h with ⟨e, h⟩ | ⟨e, vs, h1, h2⟩
  · refine .inl ⟨e, ?_⟩
    obtain ⟨f, x, k, i, rfl, g, g1, g2⟩ := slope_iff.1 h
    cases hv with
    | cons a1 a2 =>
      cases a2 with
      | cons a2 a3 =>
        cases a3
        cases hx with
        | cons b1 b2 =>
          cases b2 with
          | cons b2 _ =>
            have := b2 _ _ _ rfl
            subst this
            refine slope_iff.2 ⟨_, x, k, i, rfl, g, ?_, g2⟩
            filter_upwards [g1] with y hy
            exact a1 _ _ hy
  · refine .inr ⟨e, vs, ?_, h2⟩
    rw [Vals.iff] at h1 ⊢
    clear h2 hx
    induction h1 generalizing ds with
    | nil => cases hv; exact .nil
    | cons h1 _ ih =>
      cases hv with
      | cons a1 a2 => exact .cons (a1 _ _ h1) (ih a2)

/-- An evaluation that follows the meaning gives the value, if there is one. -/
theorem treeReduce_val (hf : Follows I arith) (t : Tree ℝ) : ∀ {p : Path} {r : ℝ} {env : Str → ℝ} {v : ℝ},
    treeReduce arith ve t p = .ok r → Val I t env v → r = v := by
  induction t using Tree.induct with
  | hc c i => intro p r env v h1 h2; simp only [treeReduce, Except.ok.injEq] at h1; simp only [Val] at h2; rw [← h1, h2]
  | hv n x i => intro p r env v h1 h2; cases h1
  | ho o cs i ih =>
    intro p r env v h1 h2
    simp only [treeReduce] at h1
    have args : ∀ (ds : List (Tree ℝ)) (k : Nat) (rs : List ℝ), (∀ c ∈ ds, c ∈ cs) → reduceArgs arith ve ds p k = .ok rs →
        (∀ c ∈ ds, ∀ n x j, c ≠ .var n x j) ∧ ∀ vs, Vals I ds env vs → rs = vs := by
      intro ds
      induction ds with
      | nil =>
        intro k rs _ h
        simp only [reduceArgs, Except.ok.injEq] at h
        refine ⟨fun c hc => (by cases hc), fun vs hv => ?_⟩
        rw [← h]
        simpa [Vals] using hv.symm
      | cons c ds ihd =>
        intro k rs hm h
        simp only [reduceArgs] at h
        cases hc : treeReduce arith ve c (p ++ [k]) with
        | error e => rw [hc] at h; cases h
        | ok u =>
          rw [hc] at h
          dsimp only at h
          cases hd : reduceArgs arith ve ds p (k + 1) with
          | error e => rw [hd] at h; cases h
          | ok us =>
            rw [hd] at h
            cases h
            obtain ⟨g1, g2⟩ := ihd (k + 1) us (fun c hc => hm c (by simp [hc])) hd
            constructor
            · intro c' hc' n x j e
              rcases List.mem_cons.1 hc' with rfl | hc'
              · subst e; cases hc
              · exact g1 c' hc' n x j e
            · intro vs hv
              simp only [Vals] at hv
              obtain ⟨v', rest, rfl, h3, h4⟩ := hv
              rw [ih c (hm c (by simp)) hc h3, g2 rest h4]
    cases ha : reduceArgs arith ve cs p 0 with
    | error e => rw [ha] at h1; cases h1
    | ok rs =>
      rw [ha] at h1
      dsimp only at h1
      obtain ⟨g1, g2⟩ := args cs 0 rs (fun c h => h) ha
      simp only [Val] at h2
      rcases h2 with ⟨-, h2⟩ | ⟨-, vs, h2, h3⟩
      · obtain ⟨f, x, k, i, rfl, -⟩ := slope_iff.1 h2
        exact absurd rfl (g1 (.var x k i) (by simp) x k i)
      · rw [g2 vs h2] at h1
        cases hr : arith o vs with
        | error e => rw [hr] at h1; cases h1
        | ok w =>
          rw [hr] at h1
          cases h1
          exact hf _ _ _ _ hr h3

/-- Constant folding keeps all values. -/
theorem reduceConst_keeps (hf : Follows I arith) (t : Tree ℝ) : ∀ p, Keeps I t (reduceConst arith ve t p).1 ∧
    ∀ n x k, t = .var n x k → (reduceConst arith ve t p).1 = .var n x k := by
  refine Tree.rec
    (motive_1 := fun t => ∀ p, Keeps I t (reduceConst arith ve t p).1 ∧
      ∀ n x k, t = .var n x k → (reduceConst arith ve t p).1 = .var n x k)
    (motive_2 := fun cs => ∀ p k, List.Forall₂ (Keeps I) cs (reduceConsts arith ve cs p k).1 ∧
      List.Forall₂ (fun c d => ∀ n x k, c = Tree.var n x k → d = .var n x k) cs (reduceConsts arith ve cs p k).1)
    ?_ ?_ ?_ ?_ ?_ t
  · intro c i p
    refine ⟨?_, fun n x k h => by cases h⟩
    intro env v h
    simpa [reduceConst, countVars, treeReduce] using h
  · intro n x i p
    refine ⟨?_, fun n x k h => ?_⟩
    · simpa [reduceConst, countVars] using Keeps.refl _
    · cases h; simp [reduceConst, countVars]
  · intro o cs i ih p
    refine ⟨?_, fun n x k h => by cases h⟩
    rw [reduceConst]
    split
    · cases hr : treeReduce arith ve (.op o cs i) p with
      | error e => exact Keeps.refl _
      | ok r =>
        intro env v hv
        have := treeReduce_val hf _ hr hv
        simp only [Val]
        exact this.symm
    · exact Keeps.op (ih p 0).1 (ih p 0).2
  · intro p k
    exact ⟨.nil, .nil⟩
  · intro c cs h1 h2 p k
    rw [reduceConsts]
    have g1 := h1 (p ++ [k])
    generalize hr : reduceConst arith ve c (p ++ [k]) = r at g1
    obtain ⟨c', e⟩ := r
    cases e with
    | some e =>
      refine ⟨.cons g1.1 ?_, .cons g1.2 ?_⟩
      · exact List.forall₂_same.2 fun c _ => Keeps.refl c
      · exact List.forall₂_same.2 fun c _ _ _ _ h => h
    | none => exact ⟨.cons g1.1 (h2 p (k + 1)).1, .cons g1.2 (h2 p (k + 1)).2⟩

/-- The replacement of negative constants keeps all values. -/
theorem replaceNeg_keeps (hI : I.Right) (t : Tree ℝ) : Keeps I t (replaceNegConsts realDoubles t) ∧
    ∀ n x k, t = .var n x k → replaceNegConsts realDoubles t = .var n x k := by
  refine Tree.rec
    (motive_1 := fun t => Keeps I t (replaceNegConsts realDoubles t) ∧
      ∀ n x k, t = .var n x k → replaceNegConsts realDoubles t = .var n x k)
    (motive_2 := fun cs => List.Forall₂ (Keeps I) cs (replaceNegConstsList realDoubles cs) ∧
      List.Forall₂ (fun c d => ∀ n x k, c = Tree.var n x k → d = .var n x k) cs (replaceNegConstsList realDoubles cs))
    ?_ ?_ ?_ ?_ ?_ t
  · intro c i
    refine ⟨?_, fun n x k h => by cases h⟩
    intro env v h
    rw [replaceNegConsts]
    split
    · rename_i hl
      have hneg : c < 0 := by simpa [realDoubles] using hl
      simp only [Val] at h ⊢
      have e3 := hI.deriv_eq
      refine .inr ⟨by rw [e3]; decide, [|c|], ?_, ?_⟩
      · simp [Vals, Val, realDoubles]
      · refine (hI.fn_eq (name := "-") (pl := .prefix) (by decide) [|c|] v).2 ?_
        show v = -|c|
        rw [h, abs_of_neg hneg, neg_neg]
    · exact h
  · intro n x i
    exact ⟨Keeps.refl _, fun n x k h => h⟩
  · intro o cs i ih
    refine ⟨?_, fun n x k h => by cases h⟩
    rw [replaceNegConsts]
    exact Keeps.op ih.1 ih.2
  · exact ⟨.nil, .nil⟩
  · intro c cs h1 h2
    rw [replaceNegConstsList]
    exact ⟨.cons h1.1 h2.1, .cons h1.2 h2.2⟩

end Verif
