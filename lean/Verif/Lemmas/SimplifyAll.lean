import Verif.Lemmas.SimpInit

/-!
# Simplification as a whole
-/

namespace Verif
open TreeProps MatchProps RewriteProps
variable {V ε : Type}

/-- Small numbers can be told apart. -/
def Doubles.Sane (D : Doubles V) : Prop := ∀ a b : Nat, a ≤ 4 → b ≤ 4 → D.eq (D.ofNat a) (D.ofNat b) = decide (a = b)

/-- A variable. -/
def Tree.isVarNode : Tree V → Bool
  | .var _ _ _ => true
  | _ => false

/-- `deriv(a, b)` where `b` is not a variable. -/
def Tree.isWrongDeriv : Tree V → Bool
  | .op o [_, b] _ => o.id == 3 && !b.isVarNode
  | _ => false

theorem checker_type {M : Machine V ε} (hD : M.dbl.Sane) {b : Tree V} (hb : Verif.AllOps (fun o _ => o.id < 58) b)
    {i j k : Nat} : M.checker (.op Shipped.o61 [.op Shipped.o58 [b] i, .op Shipped.o63 [] j] k) = !b.isVarNode := by
  have hp : reduceOps (· == typeOp) (typeEval M.dbl) b = .ok b := by
    refine reduceOps_plain _ b ?_
    clear hD
    induction hb with
    | const => exact .const
    | var => exact .var
    | @op o cs i h1 _ ih =>
      refine .op ?_ ih
      rw [beq_eq_false_iff_ne]
      rintro rfl
      exact absurd h1 (by decide)
  have e1 : (Shipped.o58 == typeOp) = true := by decide
  have e2 : (Shipped.o61 == typeOp) = false := by decide
  have e3 : (Shipped.o63 == typeOp) = false := by decide
  have e4 : (Shipped.o61 == equalOp) = false := by decide
  have e5 : (Shipped.o63 == equalOp) = false := by decide
  have hk : ∀ n : Nat, n ≤ 4 → M.dbl.eq (M.dbl.ofNat n) (M.dbl.ofNat 3) = decide (n = 3) := fun n hn => hD n 3 hn (by omega)
  have h0 : ∀ n : Nat, n ≤ 4 → M.dbl.eq (M.dbl.ofNat n) (M.dbl.ofNat 0) = decide (n = 0) := fun n hn => hD n 0 hn (by omega)
  have q1 : ¬ Shipped.o61.id < numArithOps := by decide +kernel
  have q2 : ¬ Shipped.o63.id < numArithOps := by decide +kernel
  have q3 : Shipped.o61.id - numArithOps = 3 := by decide +kernel
  have q4 : Shipped.o63.id - numArithOps = 5 := by decide +kernel
  have r1 : reduceOps (· == typeOp) (typeEval M.dbl) (.op Shipped.o61 [.op Shipped.o58 [b] i, .op Shipped.o63 [] j] k)
      = .ok (.op Shipped.o61 [.const (M.dbl.kind b) i, .op Shipped.o63 [] j] k) := by
    simp only [reduceOps, reduceOpsList, hp, Res.bind_ok, e1, e2, e3, if_true, Bool.false_eq_true, if_false,
      typeEval, Res.pure_eq]
  have r2 : reduceOps (· == equalOp) (equalEval M.dbl) (.op Shipped.o61 [.const (M.dbl.kind b) i, .op Shipped.o63 [] j] k)
      = .ok (.op Shipped.o61 [.const (M.dbl.kind b) i, .op Shipped.o63 [] j] k) := by
    simp only [reduceOps, reduceOpsList, Res.bind_ok, e4, e5, Bool.false_eq_true, if_false, Res.pure_eq]
  have p1 : propEvaluate M.dbl M.arith Shipped.o63 [] = .ok (M.dbl.ofNat 3) := by
    unfold propEvaluate
    rw [if_neg q2, q4]
    rfl
  have p2 : propEvaluate M.dbl M.arith Shipped.o61 [M.dbl.kind b, M.dbl.ofNat 3]
      = .ok (M.dbl.bool (!M.dbl.eq (M.dbl.kind b) (M.dbl.ofNat 3))) := by
    unfold propEvaluate
    rw [if_neg q1, q3]
    rfl
  have r3 : treeReduce (propEvaluate M.dbl M.arith) (.listener M.varErr)
      (.op Shipped.o61 [.const (M.dbl.kind b) i, .op Shipped.o63 [] j] k) []
      = .ok (M.dbl.bool (!M.dbl.eq (M.dbl.kind b) (M.dbl.ofNat 3))) := by
    simp only [treeReduce, reduceArgs, p1, p2]
  have hb' : ∀ x : Bool, M.dbl.eq (M.dbl.bool x) (M.dbl.ofNat 0) = !x := by
    intro x
    cases x
    · exact h0 0 (by omega)
    · exact h0 1 (by omega)
  unfold Machine.checker propChecker
  simp only [r1, r2, r3, Res.bind_ok, Res.pure_eq, hb', Bool.not_not]
  cases b with
  | const => exact congrArg (! ·) (hk 2 (by omega))
  | var => exact congrArg (! ·) (hk 3 (by omega))
  | op => exact congrArg (! ·) (hk 4 (by omega))

theorem malformed_match {M : Machine V ε} (hD : M.dbl.Sane) {s : Tree V} (hs : Verif.AllOps (fun o _ => o.id < 58) s) :
    ∃ m, getMatching M.dbl.eq M.checker malformedPattern s = .ok (if s.isWrongDeriv then some m else none) := by
  have i3 : Shipped.o3.id = 3 := rfl
  have hx : isListName ['x'] = false := rfl
  have hy : isListName ['y'] = false := rfl
  cases s with
  | const =>
    exact ⟨Matching.empty, by
      simp [getMatching, getAllMatchings, malformedPattern, extendMatching, Tree.isWrongDeriv, Res.pure_eq]⟩
  | var =>
    exact ⟨Matching.empty, by
      simp [getMatching, getAllMatchings, malformedPattern, extendMatching, Tree.isWrongDeriv, Res.pure_eq]⟩
  | op q ts i =>
    by_cases hq : q.id = 3
    · match ts with
      | [] =>
        exact ⟨Matching.empty, by
          simp [getMatching, getAllMatchings, malformedPattern, extendMatching, Tree.isWrongDeriv, Res.pure_eq, i3, hq,
            suffixLevels, Res.flatMap, suffixExtend, Tree.isListVar, hx]⟩
      | [a] =>
        exact ⟨Matching.empty, by
          simp [getMatching, getAllMatchings, malformedPattern, extendMatching, Tree.isWrongDeriv, Res.pure_eq, i3, hq,
            suffixLevels, Res.flatMap, suffixExtend, Tree.isListVar, hx, hy]⟩
      | [a, b] =>
        refine ⟨(Matching.empty.bind 0 [a]).bind 1 [b], ?_⟩
        have hb : Verif.AllOps (fun o _ => o.id < 58) b := hs.child.2 b (by simp)
        have hc := checker_type hD hb (i := 0) (j := 7) (k := 5)
        have hb1 : treeCopy b = b := treeCopy_eq b
        simp [getMatching, getAllMatchings, malformedPattern, extendMatching, Tree.isWrongDeriv, Res.pure_eq, i3, hq,
            suffixLevels, Res.flatMap, suffixExtend, Tree.isListVar, hx, hy, fillSuffix, maxMappedVars, Matching.empty,
            Matching.bind, checkConstraints, transformByMatching, transformNodes, transformNode, Matching.nodes, hb1, hc]
        cases b.isVarNode <;> simp
      | a :: b :: d :: ts =>
        exact ⟨Matching.empty, by
          simp [getMatching, getAllMatchings, malformedPattern, extendMatching, Tree.isWrongDeriv, Res.pure_eq, i3, hq,
            suffixLevels, Res.flatMap, suffixExtend, Tree.isListVar, hx, hy]⟩
    · refine ⟨Matching.empty, ?_⟩
      have : (Tree.op q ts i).isWrongDeriv = false := by
        unfold Tree.isWrongDeriv
        split
        · rename_i o a b j e
          cases e
          simp [hq]
        · rfl
      rw [this]
      simp [getMatching, getAllMatchings, malformedPattern, extendMatching, Res.pure_eq, i3, Ne.symm hq]

end Verif
