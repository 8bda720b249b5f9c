import Verif.Lemmas.OrderingEnds
import Verif.Lemmas.RuleWeights
import Verif.Props.SimplifyRuns

/-!
# C76: when simplification with the shipped rules ends

Four of the six phases of `simplify_without_derivative`, and the rules for derivatives, always end: each rule makes
expressions lighter on a scale made for its ruleset.  The last one (ruleset 6) goes on forever only if it exchanges two
negated numbers, and evaluating constants fails.  Only the main rules (ruleset 3) are left open.
-/

namespace Verif.SimplifyProps
open Verif TreeProps RewriteProps SimplProps SessionProps Shipped
variable {V ε α β : Type}

/-- Comparison of doubles with `==`: numbers that are equal are equal to the same numbers. -/
def Coherent (D : Doubles V) : Prop := ∀ a b c, D.eq a b = true → D.eq a c = D.eq b c

/-! ## One phase -/

/-- A constraint `!equal(v, 1)` for a constant. -/
theorem checker_unequal {M : Machine V ε} (hD : M.dbl.Sane) {v w : V} {i j k l : Nat}
    (h : M.checker (.op o72 [.op o59 [.const v i, .const w j] k] l) = true) : M.dbl.eq v w = false := by
  have e1 : (o72 == typeOp) = false := by decide
  have e2 : (o59 == typeOp) = false := by decide
  have e3 : (o72 == equalOp) = false := by decide
  have e4 : (o59 == equalOp) = true := by decide
  have q1 : ¬ o72.id < numArithOps := by decide +kernel
  have q2 : o72.id - numArithOps = 14 := by decide +kernel
  have r1 : reduceOps (· == typeOp) (typeEval M.dbl) (.op o72 [.op o59 [.const v i, .const w j] k] l)
      = .ok (.op o72 [.op o59 [.const v i, .const w j] k] l) := by
    simp only [reduceOps, reduceOpsList, Res.bind_ok, e1, e2, Bool.false_eq_true, if_false, Res.pure_eq]
  have r2 : reduceOps (· == equalOp) (equalEval M.dbl) (.op o72 [.op o59 [.const v i, .const w j] k] l)
      = .ok (.op o72 [.const (M.dbl.bool (treeEquals M.dbl.eq (.const v i) (.const w j))) k] l) := by
    simp only [reduceOps, reduceOpsList, Res.bind_ok, e3, e4, if_true, Bool.false_eq_true, if_false, Res.pure_eq, equalEval]
  have p1 : ∀ x, propEvaluate M.dbl M.arith o72 [x] = .ok (M.dbl.bool (M.dbl.eq x (M.dbl.ofNat 0))) := by
    intro x
    unfold propEvaluate
    rw [if_neg q1, q2]
    rfl
  have r3 : ∀ x, treeReduce (propEvaluate M.dbl M.arith) (.listener M.varErr) (.op o72 [.const x k] l) []
      = .ok (M.dbl.bool (M.dbl.eq x (M.dbl.ofNat 0))) := by
    intro x
    simp only [treeReduce, reduceArgs, p1]
  have hb : ∀ x : Bool, M.dbl.eq (M.dbl.bool x) (M.dbl.ofNat 0) = !x := by
    intro x
    cases x
    · exact hD 0 0 (by omega) (by omega)
    · exact hD 1 0 (by omega) (by omega)
  unfold Machine.checker propChecker at h
  simp only [r1, r2, r3, Res.bind_ok, Res.pure_eq, hb, Bool.not_not] at h
  cases hq : M.dbl.eq v w with
  | false => rfl
  | true => simp [treeEquals, hq] at h

/-- A rule that makes expressions lighter without a condition. -/
theorem lighter {S : Scale V} (hS : S.Fair) {D : Doubles V} (he : ∀ v w, D.eq v w = true → S.num v = S.num w)
    {checker : Tree V → Bool} {f : ℚ → V} {k : Nat} {p : RuleParts} (hp : p ∈ partsOf k)
    (hd : S.Drops (fun _ => True) (p.left.mapVal f) (p.right.mapVal f)) {t t' : Tree V}
    (h : applyRule D.eq checker (p.rule f) t = .ok (some t')) : S.weigh t' < S.weigh t :=
  Scale.drops hS he (rule_accepted (parts_fit k p hp) f) (fun _ _ _ _ => trivial) hd h

/-- The scale for a ruleset. -/
def scaleOf (D : Doubles V) (f : ℚ → V) : Nat → Scale V
  | 0 => scale0
  | 1 => scale1
  | 2 => scale2
  | 4 => scale4
  | _ => scale5 D.eq (f 1)

theorem scaleOf_fair (D : Doubles V) (f : ℚ → V) (k : Nat) : (scaleOf D f k).Fair := by
  unfold scaleOf
  split
  · exact fair0
  · exact fair1
  · exact fair2
  · exact fair4
  · exact fair5 _ _

/-- Every rule of the rulesets 0, 1, 2, 4 and 5 makes expressions lighter. -/
theorem rules_lighter (M : Machine V ε) (hD : M.dbl.Sane) (hE : Coherent M.dbl) (f : ℚ → V)
    (h1 : M.dbl.eq (f 1) (f 1) = true) {k : Nat} (hk : k ∈ [0, 1, 2, 4, 5]) {r : RewriteRule V}
    (hr : r ∈ (shippedSimp f).rulesets k) {t t' : Tree V} (h : applyRule M.dbl.eq M.checker r t = .ok (some t')) :
    (scaleOf M.dbl f k).weigh t' < (scaleOf M.dbl f k).weigh t := by
  obtain ⟨p, hp, rfl⟩ := List.mem_map.1 hr
  simp only [List.mem_cons, List.not_mem_nil, or_false] at hk
  rcases hk with rfl | rfl | rfl | rfl | rfl
  · exact lighter fair0 (fun _ _ _ => rfl) hp (drops0 f p hp) h
  · exact lighter fair1 (fun _ _ _ => rfl) hp (drops1 f p hp) h
  · exact lighter fair2 (fun _ _ _ => rfl) hp (drops2 f p hp) h
  · exact lighter fair4 (fun _ _ _ => rfl) hp (drops4 f p hp) h
  · have he : ∀ v w, M.dbl.eq v w = true → (scale5 M.dbl.eq (f 1)).num v = (scale5 M.dbl.eq (f 1)).num w := by
      intro v w hvw
      simp only [scale5]
      rw [hE v w (f 1) hvw]
    have hp' : p ∈ parts5.take 22 ∨ p = p5_22 := by
      have hp : p ∈ parts5 := hp
      rw [← List.take_append_drop 22 parts5] at hp
      rcases List.mem_append.1 hp with h | h
      · exact .inl h
      · exact .inr (by simpa [parts5] using h)
    rcases hp' with hp' | rfl
    · exact lighter (fair5 _ _) he hp (drops5 _ _ f p hp') h
    · refine Scale.drops (fair5 _ _) he (rule_accepted (parts_fit 5 _ hp) f) ?_ (drops5_22 _ f h1) h
      intro σ ρ hρ hc a ha
      have hx : ['x'] ∈ (p5_22.left.mapVal f).varNames := by
        simp [p5_22, Tree.mapVal, Tree.mapVals, varNames_eq, Tree.names, Tree.namesList]
      obtain ⟨c', hi, hck⟩ := hc (by
        intro c hc n hn
        simp only [p5_22, List.map_cons, List.map_nil, List.mem_singleton] at hc
        subst hc
        simp [Tree.mapVal, Tree.mapVals, varNames_eq, Tree.names, Tree.namesList] at hn
        rw [hn]
        exact hx) (List.ne_nil_of_mem hx) _ (by simp only [p5_22, List.map_cons]; exact List.mem_cons_self)
      simp only [Tree.mapVal, Tree.mapVals] at hi
      cases hi with
      | @op _ _ _ parts hl hi =>
        match parts, hl with
        | [q], _ =>
          have hi1 := hi 0 (by simp)
          simp only [List.getElem_cons_zero] at hi1
          cases hi1 with
          | @op _ _ _ qs hl2 hi2 =>
            match qs, hl2 with
            | [l, m], _ =>
              have g1 := hi2 0 (by simp)
              have g2 := hi2 1 (by simp)
              simp only [List.getElem_cons_zero, List.getElem_cons_succ] at g1 g2
              cases g2
              cases g1 with
              | var g1 =>
                have e := (hρ _ hx l g1).symm.trans ha
                match l, e with
                | [y], e =>
                  simp only [List.map_cons, List.map_nil, List.cons.injEq, and_true] at e
                  rw [← e]
                  cases y with
                  | op o cs i => exact Scale.weigh_low (fair5 _ _) o cs i
                  | var n x i => rw [Scale.weigh]
                  | const v i =>
                    have hv := checker_unequal hD (i := i) (j := 5) (k := 1) (l := 0) hck
                    rw [Scale.weigh]
                    simp [scale5, hv]

/-- **C76** (partial: rulesets 0, 1, 2, 4 and 5): whatever the expression is, applying the ruleset ends, with a result that does
not depend on the bound.  The number of rounds is at most the weight of the expression. -/
theorem C76_phase_partial (M : Machine V ε) (hD : M.dbl.Sane) (hE : Coherent M.dbl) (f : ℚ → V)
    (h1 : M.dbl.eq (f 1) (f 1) = true) {k : Nat} (hk : k ∈ [0, 1, 2, 4, 5]) (t : Tree V) :
    ∃ u, ∀ n, (scaleOf M.dbl f k).weigh t < n →
      ({ M with fuel := n } : Machine V ε).applySimplification ((shippedSimp f).rulesets k) t = .ok u := by
  have key : ∀ n, (scaleOf M.dbl f k).weigh t < n → ∃ u,
      ({ M with fuel := n } : Machine V ε).applySimplification ((shippedSimp f).rulesets k) t = .ok u := by
    intro n hn
    have hl := Scale.loop_ends (scaleOf_fair M.dbl f k) (D := M.dbl) (checker := M.checker) (arith := M.arith) (ve := M.varErr)
      (fun r hr t t' h => rules_lighter M hD hE f h1 hk hr h) hn
    have hfine := ({ M with fuel := n } : Machine V ε).applySimplification_fine ((Shipped.fit f).safe k) t
    cases h : ({ M with fuel := n } : Machine V ε).applySimplification ((shippedSimp f).rulesets k) t with
    | ok u => exact ⟨u, rfl⟩
    | defect => rw [h] at hfine; exact hfine.elim
    | ub => rw [h] at hfine; exact hfine.elim
    | hang =>
      exfalso
      change Out.ofFuel (simplifyLoop M.dbl M.checker M.arith M.varErr _ n t) = .hang at h
      cases hs : simplifyLoop M.dbl M.checker M.arith M.varErr ((shippedSimp f).rulesets k) n t with
      | ub => rw [hs] at h; cases h
      | defect => rw [hs] at h; cases h
      | ok r =>
        cases r with
        | none => exact hl hs
        | some w => rw [hs] at h; cases h
  obtain ⟨u, hu⟩ := key _ (Nat.lt_succ_self _)
  refine ⟨u, fun n hn => ?_⟩
  obtain ⟨w, hw⟩ := key n hn
  rcases apply_same (m := n) hu with h | h
  · rw [h] at hw; cases hw
  · exact h

/-- After applying the last ruleset once, evaluating constants fails. -/
def FoldFails (M : Machine V ε) (f : ℚ → V) (t : Tree V) : Prop :=
  ∃ r ∈ (shippedSimp f).rulesets 6, ∃ u, applyRule M.dbl.eq M.checker r t = .ok (some u) ∧
    (reduceConst M.arith M.varErr u []).2 ≠ none

theorem ordering_round {M : Machine V ε} {f : ℚ → V} {n : Nat} {t : Tree V}
    (h : simplifyLoop M.dbl M.checker M.arith M.varErr ((shippedSimp f).rulesets 6) (n + 1) t = .ok none) :
    ∃ u, applyRule M.dbl.eq M.checker (p6_0.rule f) t = .ok (some u) ∧
      simplifyLoop M.dbl M.checker M.arith M.varErr ((shippedSimp f).rulesets 6) n (reduceConst M.arith M.varErr u []).1 = .ok none := by
  simp only [simplifyLoop] at h
  obtain ⟨r, hr', h⟩ := Res.bind_eq_ok.1 h
  rcases applyRuleset_one hr' with ⟨h1, rfl⟩ | ⟨u, hu, rfl⟩
  · cases h
  · have e : applyFirst M.dbl.eq M.checker [p6_0.rule f] t = .ok (some u) := hu
    simp only [applyFirst] at e
    obtain ⟨x, hx, e⟩ := Res.bind_eq_ok.1 e
    cases x with
    | none => cases e
    | some y => cases e; exact ⟨_, hx, h⟩

theorem ordering_keeps (M : Machine V ε) (f : ℚ → V) {t u : Tree V} (ht : Verif.AllOps BuiltIn t)
    (h : applyRule M.dbl.eq M.checker (p6_0.rule f) t = .ok (some u)) :
    Verif.AllOps BuiltIn (reduceConst M.arith M.varErr u []).1 := by
  have hg : GoodRule BuiltIn (p6_0.rule f) :=
    ((Shipped.fit f).good 6 _ (List.mem_map_of_mem (show p6_0 ∈ parts6 by simp [parts6]))).mono fun o n h => by
      rcases h with ⟨h, -⟩ | ⟨h, -⟩
      · exact h
      · omega
  have hw : Within BuiltIn (fun _ _ => True) (fun _ => True) t := by
    clear h
    induction ht with
    | const => exact .const trivial
    | var => exact .var trivial
    | op h _ ih => exact .op h trivial ih
  exact (reduceConst_within M.arith M.varErr (hg.apply h hw) []).ops

theorem ordering_ends (M : Machine V ε) (hD : M.dbl.Sane) (f : ℚ → V) : ∀ {n : Nat} {t : Tree V}, Verif.AllOps BuiltIn t →
    ¬ NegatedPair t → turns t < n →
    simplifyLoop M.dbl M.checker M.arith M.varErr ((shippedSimp f).rulesets 6) n t ≠ .ok none := by
  intro n
  induction n with
  | zero => intro t _ _ h; omega
  | succ n ih =>
    intro t ht hp hn h
    obtain ⟨u, hu, h⟩ := ordering_round h
    obtain ⟨h1, h2⟩ := (ordering_applied hD f (ht.mono fun o n h => h.id) hu).2 hp
    obtain ⟨-, -, h3, h4⟩ := reduceConst_milder M.arith M.varErr u []
    exact ih (ordering_keeps M f ht hu) (fun h => h2 (h4 h)) (by omega) h

theorem fold_ends (M : Machine V ε) (hD : M.dbl.Sane) (f : ℚ → V) {n : Nat} {t : Tree V} (ht : Verif.AllOps BuiltIn t)
    (hp : ¬ FoldFails M f t) (hn : 2 ≤ n) :
    simplifyLoop M.dbl M.checker M.arith M.varErr ((shippedSimp f).rulesets 6) n t ≠ .ok none := by
  obtain ⟨n, rfl⟩ : ∃ m, n = m + 2 := ⟨n - 2, by omega⟩
  intro h
  obtain ⟨u, hu, h⟩ := ordering_round h
  obtain ⟨w, hw, -⟩ := ordering_round h
  have hn : (reduceConst M.arith M.varErr u []).2 = none := by
    by_contra hne
    exact hp ⟨_, List.mem_map_of_mem (show p6_0 ∈ parts6 by simp [parts6]), u, hu, hne⟩
  have := (ordering_applied hD f ((ordering_keeps M f ht hu).mono fun o n h => h.id) hw).1
  have := (reduceConst_none M.arith M.varErr u [] hn).1
  omega

/-- **C76** (partial: ruleset 6, unless two negated numbers are multiplied and evaluating constants fails after the rule was
applied): applying the ruleset ends, with a result that does not depend on the bound.  The number of rounds is at most the
number of places where something is multiplied with a negated number, and at most 2 if evaluating constants does not fail. -/
theorem C76_ordering_partial (M : Machine V ε) (hD : M.dbl.Sane) (f : ℚ → V) {t : Tree V} (ht : Verif.AllOps BuiltIn t)
    (hp : ¬ (NegatedPair t ∧ FoldFails M f t)) :
    ∃ u, ∀ n, (turns t < n ∧ 2 ≤ n) →
      ({ M with fuel := n } : Machine V ε).applySimplification ((shippedSimp f).rulesets 6) t = .ok u := by
  have key : ∀ n, (turns t < n ∧ 2 ≤ n) → ∃ u,
      ({ M with fuel := n } : Machine V ε).applySimplification ((shippedSimp f).rulesets 6) t = .ok u := by
    intro n hn
    have hl : simplifyLoop M.dbl M.checker M.arith M.varErr ((shippedSimp f).rulesets 6) n t ≠ .ok none := by
      by_cases hq : NegatedPair t
      · exact fold_ends M hD f ht (fun h => hp ⟨hq, h⟩) hn.2
      · exact ordering_ends M hD f ht hq hn.1
    have hfine := ({ M with fuel := n } : Machine V ε).applySimplification_fine ((Shipped.fit f).safe 6) t
    cases h : ({ M with fuel := n } : Machine V ε).applySimplification ((shippedSimp f).rulesets 6) t with
    | ok u => exact ⟨u, rfl⟩
    | defect => rw [h] at hfine; exact hfine.elim
    | ub => rw [h] at hfine; exact hfine.elim
    | hang =>
      exfalso
      change Out.ofFuel (simplifyLoop M.dbl M.checker M.arith M.varErr _ n t) = .hang at h
      cases hs : simplifyLoop M.dbl M.checker M.arith M.varErr ((shippedSimp f).rulesets 6) n t with
      | ub => rw [hs] at h; cases h
      | defect => rw [hs] at h; cases h
      | ok r =>
        cases r with
        | none => exact hl hs
        | some w => rw [hs] at h; cases h
  obtain ⟨u, hu⟩ := key (turns t + 2) ⟨by omega, by omega⟩
  refine ⟨u, fun n hn => ?_⟩
  obtain ⟨w, hw⟩ := key n hn
  rcases apply_same (m := n) hu with h | h
  · rw [h] at hw; cases hw
  · exact h

/-! ## All phases -/

/-- A loop with a bound: without a result up to some bound, with the same result from there on. -/
def Settled (P : Nat → Out α) : Prop := ∀ n, P n = .hang ∨ ∃ r, ∀ m, n ≤ m → P m = .ok r

theorem Settled.const {x : Out α} (h : x.Fine) : Settled fun _ => x := by
  intro n
  cases x with
  | hang => exact .inl rfl
  | ok r => exact .inr ⟨r, fun _ _ => rfl⟩
  | ub => exact h.elim
  | defect => exact h.elim

theorem Settled.bind {P : Nat → Out α} {Q : Nat → α → Out β} (hP : Settled P)
    (hQ : ∀ r n, P n = .ok r → Settled fun n => Q n r) : Settled fun n => P n >>= Q n := by
  intro n
  rcases hP n with h | ⟨r, h⟩
  · exact .inl (by simp only [h, Out.bind_hang])
  · rcases hQ r n (h n (Nat.le_refl _)) n with h' | ⟨r', h'⟩
    · exact .inl (by simp only [h n (Nat.le_refl _), Out.bind_ok, h'])
    · exact .inr ⟨r', fun m hm => by simp only [h m hm, Out.bind_ok, h' m hm]⟩

/-- It is settled, and ends unless `B`. -/
def EndsUnless (B : Prop) (P : Nat → Out α) : Prop := Settled P ∧ ((∃ n r, P n = .ok r) ∨ B)

theorem EndsUnless.const {B : Prop} {x : Out α} (h : ∃ r, x = .ok r) : EndsUnless B fun _ => x := by
  obtain ⟨r, rfl⟩ := h
  exact ⟨.const trivial, .inl ⟨0, r, rfl⟩⟩

theorem EndsUnless.bind {B : Prop} {P : Nat → Out α} {Q : Nat → α → Out β} (hP : EndsUnless B P)
    (hQ : ∀ r n, P n = .ok r → EndsUnless B fun n => Q n r) : EndsUnless B fun n => P n >>= Q n := by
  refine ⟨hP.1.bind fun r n h => (hQ r n h).1, ?_⟩
  rcases hP.2 with ⟨n, r, h⟩ | h
  · rcases (hQ r n h).2 with ⟨m, r', h'⟩ | h'
    · refine .inl ⟨max n m, r', ?_⟩
      have e1 : P (max n m) = .ok r := by
        rcases hP.1 n with g | ⟨r1, g⟩
        · rw [g] at h; cases h
        · have := g n (Nat.le_refl _)
          rw [h] at this
          cases this
          exact g _ (Nat.le_max_left _ _)
      have e2 : Q (max n m) r = .ok r' := by
        rcases (hQ r n h).1 m with g | ⟨r1, g⟩
        · simp only [g] at h'; cases h'
        · have := g m (Nat.le_refl _)
          rw [h'] at this
          cases this
          exact g _ (Nat.le_max_right _ _)
      simp only [e1, Out.bind_ok, e2]
    · exact .inr h'
  · exact .inr h

/-- A loop that has ended keeps its result with larger bounds. -/
theorem loop_more (D : Doubles V) (checker : Tree V → Bool) (arith : Op → List V → Except ε V) (ve : ε)
    (rules : List (RewriteRule V)) : ∀ {n m : Nat} {t u : Tree V}, n ≤ m →
    simplifyLoop D checker arith ve rules n t = .ok (some u) → simplifyLoop D checker arith ve rules m t = .ok (some u) := by
  intro n
  induction n with
  | zero => intro m t u _ h; cases h
  | succ n ih =>
    intro m t u hm h
    cases m with
    | zero => omega
    | succ m =>
      unfold simplifyLoop at h ⊢
      cases ha : applyRuleset D.eq checker rules 1 1 t with
      | ub => rw [ha] at h; cases h
      | defect => rw [ha] at h; cases h
      | ok r =>
        rw [ha, Res.bind_ok] at h
        rw [Res.bind_ok]
        match r, h with
        | some (t', 0), h => exact h
        | some (t', k + 1), h => exact ih (Nat.le_of_succ_le_succ hm) h
        | none, h => cases h

theorem apply_settled (M : Machine V ε) {rules : List (RewriteRule V)} (h : ∀ r ∈ rules, SafeRule r) (t : Tree V) :
    Settled fun n => ({ M with fuel := n } : Machine V ε).applySimplification rules t := by
  intro n
  obtain ⟨r, hr⟩ := SafeRule.loop h (D := M.dbl) (ck := M.checker) (L := M.arith) (ve := M.varErr) (fuel := n) t
  change Out.ofFuel (simplifyLoop M.dbl M.checker M.arith M.varErr rules n t) = .hang ∨ ∃ r, ∀ m, n ≤ m →
    Out.ofFuel (simplifyLoop M.dbl M.checker M.arith M.varErr rules m t) = .ok r
  cases r with
  | none => exact .inl (by rw [hr]; rfl)
  | some u => exact .inr ⟨u, fun m hm => by rw [loop_more _ _ _ _ _ hm hr]; rfl⟩

theorem shorthand_more (M : Machine V ε) {before : Pattern V} {after : Tree V} : ∀ {n m : Nat} {t : Tree V}
    {r : Except (SimpErr ε × Nat) (Tree V)}, n ≤ m →
    M.shorthandLoop before after n t = .ok r → M.shorthandLoop before after m t = .ok r := by
  intro n
  induction n with
  | zero => intro m t r _ h; cases h
  | succ n ih =>
    intro m t r hm h
    cases m with
    | zero => omega
    | succ m =>
      unfold Machine.shorthandLoop at h ⊢
      obtain ⟨x, hx, h⟩ := Out.bind_eq_ok.1 h
      rw [hx, Out.bind_ok]
      cases x with
      | none => exact h
      | some q =>
        obtain ⟨p, b⟩ := q
        dsimp only at h ⊢
        cases ht : t.deref p with
        | none => rw [ht] at h; cases h
        | some s =>
          rw [ht] at h
          dsimp only at h ⊢
          split at h
          · rename_i hc
            rw [if_pos hc]
            exact h
          · rename_i hc
            rw [if_neg hc]
            split at h
            · rename_i arg rest hb
              obtain ⟨y, hy, h⟩ := Out.bind_eq_ok.1 h
              rw [hy, Out.bind_ok]
              exact ih (Nat.le_of_succ_le_succ hm) h
            · cases h

/-- Built-in operators only, and no variable has been numbered. -/
abbrev Unnumbered (t : Tree V) : Prop := Within BuiltIn (fun _ x => x = 0) (fun _ => True) t

theorem unnumbered_iff {t : Tree V} : Unnumbered t ↔ Verif.AllOps BuiltIn t ∧ NoIds t := by
  constructor
  · intro h
    refine ⟨h.ops, ?_⟩
    induction h with
    | const => exact .const
    | var h => subst h; exact .var
    | op _ _ _ ih => exact .op ih
  · rintro ⟨h, hn⟩
    induction h with
    | const => exact .const trivial
    | var => cases hn with | var => exact .var rfl
    | op h _ ih =>
      cases hn with
      | op hn => exact .op h trivial fun c hc => ih c hc (hn c hc)

/-- One phase of `simplify`: evaluating, one ruleset, writing derivatives out. -/
inductive Phase (M : Machine V ε) (f : ℚ → V) : Tree V → Tree V → Prop where
  | evaluated {t} : Phase M f t (reduceConst M.arith M.varErr t []).1
  | rules {t u} (k n : Nat) :
      ({ M with fuel := n } : Machine V ε).applySimplification ((shippedSimp f).rulesets k) t = .ok u → Phase M f t u
  | explicit {t u} : Explicit prime deriv (.var ['z'] 0 5) t u → Phase M f t u

/-- The expressions the phases of `simplify` make of an expression. -/
inductive Arrives (M : Machine V ε) (f : ℚ → V) (t : Tree V) : Tree V → Prop where
  | start : Arrives M f t t
  | step {u w} : Arrives M f t u → Phase M f u w → Arrives M f t w

/-- On the way an expression occurs with which ruleset 3 goes on forever, or one with which ruleset 6 does, in which two negated
numbers are multiplied, and evaluating constants after the first application of ruleset 6 fails. -/
def Stuck (M : Machine V ε) (f : ℚ → V) (t : Tree V) : Prop :=
  ∃ k u, (k = 3 ∨ (k = 6 ∧ NegatedPair u ∧ FoldFails M f u)) ∧ Arrives M f t u ∧
    ∀ n, ({ M with fuel := n } : Machine V ε).applySimplification ((shippedSimp f).rulesets k) u = .hang

section phases
variable {M : Machine V ε} {f : ℚ → V}

theorem apply_ends (hD : M.dbl.Sane) (hE : Coherent M.dbl) (h1 : M.dbl.eq (f 1) (f 1) = true) {t u : Tree V}
    (hu : Arrives M f t u) {k : Nat} (hk : k ≤ 6) (h6 : k = 6 → Verif.AllOps BuiltIn u) : EndsUnless (Stuck M f t) fun n =>
      ({ M with fuel := n } : Machine V ε).applySimplification ((shippedSimp f).rulesets k) u := by
  have hs := apply_settled M ((Shipped.fit f).safe k) u
  refine ⟨hs, ?_⟩
  by_cases h36 : k = 3 ∨ (k = 6 ∧ NegatedPair u ∧ FoldFails M f u)
  · by_cases he : ∃ n r, ({ M with fuel := n } : Machine V ε).applySimplification ((shippedSimp f).rulesets k) u = .ok r
    · exact .inl he
    · refine .inr ⟨k, u, h36, hu, fun n => ?_⟩
      rcases hs n with h | ⟨r, h⟩
      · exact h
      · exact absurd ⟨n, r, h n (Nat.le_refl _)⟩ he
  · by_cases hk6 : k = 6
    · subst hk6
      obtain ⟨w, hw⟩ := C76_ordering_partial M hD f (h6 rfl) fun h => h36 (.inr ⟨rfl, h⟩)
      exact .inl ⟨turns u + 2, w, hw _ ⟨by omega, by omega⟩⟩
    · have hm : k ∈ [0, 1, 2, 4, 5] := by
        have : k ≠ 3 := fun h => h36 (.inl h)
        simp only [List.mem_cons, List.not_mem_nil, or_false]
        omega
      obtain ⟨w, hw⟩ := C76_phase_partial M hD hE f h1 hm u
      exact .inl ⟨_, w, hw _ (Nat.lt_succ_self _)⟩

/-- Every ruleset leaves only built-in operators. -/
theorem apply_unnumbered {n k : Nat} {u w : Tree V} (hu : Unnumbered u)
    (h : ({ M with fuel := n } : Machine V ε).applySimplification ((shippedSimp f).rulesets k) u = .ok w) : Unnumbered w := by
  have hf := Shipped.fit f
  have hw0 : Within (fun o n => BuiltIn o n ∨ (k = 0 ∧ o.id = 73)) (fun _ x => x = 0) (fun _ => True) w := by
    refine Machine.applySimplification_within _ (fun r hr => (hf.good k r hr).mono fun o n ho => ?_) (.inl neg_builtIn) h
      (hu.mono (fun o n h => .inl h) (fun _ _ h => h) fun _ h => h)
    exact ho.imp_left fun h => h.1
  by_cases hk : k = 0
  · subst hk
    refine hw0.of_ops ?_
    obtain ⟨u, hu, e⟩ := simplifyLoop_last (Out.ofFuel_ok h)
    have h73 := replaceNeg_ops M.dbl (by decide) (hf.count _ _ _ hu)
    rw [← e] at h73
    exact (hw0.ops.and h73).mono fun o n h => h.1.resolve_right fun g => h.2 g.2
  · exact hw0.mono (fun o n h => h.resolve_right fun g => hk g.1) (fun _ _ h => h) fun _ h => h

theorem applyAll_arrives {t : Tree V} : ∀ (ks : List Nat) {u w : Tree V} {n : Nat}, Arrives M f t u →
    ({ M with fuel := n } : Machine V ε).applyAll (shippedSimp f).rulesets ks u = .ok w → Arrives M f t w := by
  intro ks
  induction ks with
  | nil => intro u w n hu h; cases h; exact hu
  | cons k ks ih =>
    intro u w n hu h
    unfold Machine.applyAll at h
    obtain ⟨x, hx, h⟩ := Out.bind_eq_ok.1 h
    exact ih (hu.step (.rules k n hx)) h

theorem applyAll_ends (hD : M.dbl.Sane) (hE : Coherent M.dbl) (h1 : M.dbl.eq (f 1) (f 1) = true) {t : Tree V} :
    ∀ (ks : List Nat) {u : Tree V}, (∀ k ∈ ks, k ≤ 6) → Unnumbered u → Arrives M f t u → EndsUnless (Stuck M f t) fun n =>
      ({ M with fuel := n } : Machine V ε).applyAll (shippedSimp f).rulesets ks u := by
  intro ks
  induction ks with
  | nil => intro u _ _ _; exact .const ⟨u, rfl⟩
  | cons k ks ih =>
    intro u hk hp hu
    refine (apply_ends hD hE h1 hu (hk k (by simp)) fun _ => hp.ops).bind
      (Q := fun n x => ({ M with fuel := n } : Machine V ε).applyAll (shippedSimp f).rulesets ks x) fun r n h => ?_
    exact ih (fun k h => hk k (by simp [h])) (apply_unnumbered hp h) (hu.step (.rules k n h))

theorem shorthand_ends {t u : Tree V} (hp : Unnumbered u) : EndsUnless (Stuck M f t) fun n =>
    M.shorthandLoop ⟨primeTree, fun _ => []⟩ derivTree n u := by
  refine ⟨fun n => ?_, .inl ?_⟩
  · rcases M.shorthand_within (N := fun _ x => x = 0) (T := fun _ => True) deriv_builtIn (fun _ _ _ => rfl) rfl n u hp with h | ⟨w, h, -⟩ | ⟨i, h, -⟩
    · exact .inl h
    · exact .inr ⟨_, fun m hm => shorthand_more M hm h⟩
    · exact .inr ⟨_, fun m hm => shorthand_more M hm h⟩
  · obtain ⟨h1, h2⟩ := unnumbered_iff.1 hp
    rcases M.shorthand_exact (prime := prime) (deriv := deriv) (by decide) (x := ['x']) rfl (j := 0) (k := 1) (i := 0)
      (a := .var ['x'] 0 2) (z := ['z']) (zx := 0) (zi := 5) _ u (builtIn_plain h1 h2) rfl (Nat.lt_succ_self _)
      with ⟨w, h, -⟩ | ⟨i, h, -⟩
    · exact ⟨_, _, h⟩
    · exact ⟨_, _, h⟩

theorem shorthand_arrives {t u w : Tree V} (hp : Unnumbered u) (hu : Arrives M f t u) {n : Nat}
    (h : M.shorthandLoop ⟨primeTree, fun _ => []⟩ derivTree n u = .ok (.ok w)) : Arrives M f t w := by
  obtain ⟨h1, h2⟩ := unnumbered_iff.1 hp
  have h := shorthand_more M (Nat.le_max_left n (u.primes prime.id + 1)) h
  rcases M.shorthand_exact (prime := prime) (deriv := deriv) (by decide) (x := ['x']) rfl (j := 0) (k := 1) (i := 0)
    (a := .var ['x'] 0 2) (z := ['z']) (zx := 0) (zi := 5) _ u (builtIn_plain h1 h2) rfl
    (Nat.lt_of_lt_of_le (Nat.lt_succ_self _) (Nat.le_max_right n (u.primes prime.id + 1))) with ⟨w', h', he⟩ | ⟨i, h', -⟩
  · have e := h.symm.trans h'
    cases e
    exact hu.step (.explicit he)
  · have e := h.symm.trans h'
    cases e

theorem shorthand_fuel (M : Machine V ε) (k : Nat) (before : Pattern V) (after : Tree V) : ∀ (n : Nat) (t : Tree V),
    ({ M with fuel := k } : Machine V ε).shorthandLoop before after n t = M.shorthandLoop before after n t := by
  intro n
  induction n with
  | zero => intro t; rfl
  | succ n ih =>
    intro t
    simp only [Machine.shorthandLoop, ih]

/-- `apply_derivatives` after its loop. -/
def restDerivatives (M : Machine V ε) (f : ℚ → V) (n : Nat) (t1 : Tree V) : Out (Except (SimpErr ε × Nat) (Tree V)) := do
  match ← Out.of (findMatching M.dbl.eq M.checker malformedPattern t1 []) with
  | some (p, _) => do
    let i ← errTok t1 p
    pure (.error (.malformedB, i))
  | none => do
    let t2 ← ({ M with fuel := n } : Machine V ε).applySimplification ((shippedSimp f).rulesets 1) t1
    match findOpNode o3.id t2 [] with
    | some p => do
      let i ← errTok t2 p
      pure (.error (.impossible, i))
    | none => pure (.ok t2)

theorem derivatives_eq (M : Machine V ε) (f : ℚ → V) (n : Nat) (t : Tree V) :
    ({ M with fuel := n } : Machine V ε).applyDerivatives (shippedSimp f) t =
    (M.shorthandLoop ⟨primeTree, fun _ => []⟩ derivTree n t >>= fun r =>
      match r with
      | .error e => pure (.error e)
      | .ok t1 => restDerivatives M f n t1) := by
  rw [← shorthand_fuel M n]
  rfl

theorem rest_ends (hD : M.dbl.Sane) (hE : Coherent M.dbl) (h1 : M.dbl.eq (f 1) (f 1) = true) {t u : Tree V}
    (hw : Verif.AllOps BuiltIn u) (ha : Arrives M f t u) : EndsUnless (Stuck M f t) fun n => restDerivatives M f n u := by
  unfold restDerivatives
  rcases M.find_malformed hD (hw.mono fun o n h => h.id) with ⟨g1, -⟩ | ⟨p, m, x, g1, g2, -⟩
  · simp only [g1, Out.of, Out.bind_ok]
    refine (apply_ends hD hE h1 ha (show 1 ≤ 6 by omega) (by omega)).bind fun r n h => ?_
    cases ho : findOpNode o3.id r [] with
    | none => exact .const ⟨_, rfl⟩
    | some p =>
      obtain ⟨o, cs, i, g4, -⟩ := Machine.find_op ho
      simp only [errTok, g4]
      exact .const ⟨_, rfl⟩
  · simp only [g1, Out.of, Out.bind_ok, errTok, g2]
    exact .const ⟨_, rfl⟩

theorem derivatives_ends (hD : M.dbl.Sane) (hE : Coherent M.dbl) (h1 : M.dbl.eq (f 1) (f 1) = true) {t u : Tree V}
    (hp : Unnumbered u) (hu : Arrives M f t u) : EndsUnless (Stuck M f t) fun n =>
      ({ M with fuel := n } : Machine V ε).applyDerivatives (shippedSimp f) u := by
  simp only [derivatives_eq]
  refine (shorthand_ends (M := M) (f := f) (t := t) hp).bind fun r n h => ?_
  cases r with
  | error e => exact .const ⟨_, rfl⟩
  | ok w =>
    have hw : Verif.AllOps BuiltIn w := by
      rcases M.shorthand_within (N := fun _ x => x = 0) (T := fun _ => True) deriv_builtIn (fun _ _ _ => rfl) rfl n u hp
        with g | ⟨w', g, g', -⟩ | ⟨i, g, -⟩
      · rw [h] at g; cases g
      · rw [h] at g; cases g; exact g'.ops
      · rw [h] at g; cases g
    exact rest_ends hD hE h1 hw (shorthand_arrives hp hu h)

theorem derivatives_arrives {t u w : Tree V} (hp : Unnumbered u) (hu : Arrives M f t u) {n : Nat}
    (h : ({ M with fuel := n } : Machine V ε).applyDerivatives (shippedSimp f) u = .ok (.ok w)) : Arrives M f t w := by
  rw [derivatives_eq] at h
  obtain ⟨r, hr, h⟩ := Out.bind_eq_ok.1 h
  cases r with
  | error e => cases h
  | ok t1 =>
    have ha := shorthand_arrives hp hu hr
    dsimp only at h
    unfold restDerivatives at h
    obtain ⟨x, hx, h⟩ := Out.bind_eq_ok.1 h
    cases x with
    | some q =>
      obtain ⟨i, -, h⟩ := Out.bind_eq_ok.1 h
      cases h
    | none =>
      obtain ⟨t2, h2, h⟩ := Out.bind_eq_ok.1 h
      split at h
      · obtain ⟨i, -, h⟩ := Out.bind_eq_ok.1 h
        cases h
      · cases h
        exact ha.step (.rules 1 n h2)

/-- `simplify` after `apply_derivatives`. -/
def restSimplify (M : Machine V ε) (f : ℚ → V) (n : Nat) (t2 : Tree V) : Out (Except (SimpErr ε × Nat) (Tree V)) := do
  let t3 ← ({ M with fuel := n } : Machine V ε).applyAll (shippedSimp f).rulesets [0, 2, 3, 4, 5, 6] t2
  match ← M.fold t3 with
  | .error e => pure (.error e)
  | .ok t4 => pure (.ok (replaceNegConsts M.dbl t4))

theorem simplify_eq (M : Machine V ε) (f : ℚ → V) (n : Nat) (t : Tree V) :
    ({ M with fuel := n } : Machine V ε).simplify (shippedSimp f) t =
    (({ M with fuel := n } : Machine V ε).applyAll (shippedSimp f).rulesets [0, 2, 3, 4, 5, 6]
        (reduceConst M.arith M.varErr t []).1 >>= fun t1 =>
      ({ M with fuel := n } : Machine V ε).applyDerivatives (shippedSimp f) t1 >>= fun r =>
        match r with
        | .error e => pure (.error e)
        | .ok t2 => restSimplify M f n t2) := by
  rfl

end phases

/-- **C76** (partial: ruleset 3 is left out, and ruleset 6 if it exchanges two negated numbers and evaluating constants fails):
the simplification of an expression with the shipped rules ends, with a result or an error that does not depend on the bounds
for the loops, unless on the way an expression occurs with which ruleset 3 or, in the said case, ruleset 6 goes on forever;
then it never ends. -/
theorem C76_partial (M : Machine V ε) (hD : M.dbl.Sane) (hE : Coherent M.dbl) (f : ℚ → V)
    (h1 : M.dbl.eq (f 1) (f 1) = true) {t : Tree V} (ht : Verif.AllOps BuiltIn t) (hn : NoIds t) :
    (∃ n r, ∀ m, n ≤ m → ({ M with fuel := m } : Machine V ε).simplify (shippedSimp f) t = .ok r) ∨
    ((∀ m, ({ M with fuel := m } : Machine V ε).simplify (shippedSimp f) t = .hang) ∧ Stuck M f t) := by
  have hp : Unnumbered (reduceConst M.arith M.varErr t []).1 := reduceConst_within M.arith M.varErr (unnumbered_iff.2 ⟨ht, hn⟩) []
  have ha : Arrives M f t (reduceConst M.arith M.varErr t []).1 := Arrives.start.step .evaluated
  have key : EndsUnless (Stuck M f t) fun n => ({ M with fuel := n } : Machine V ε).simplify (shippedSimp f) t := by
    simp only [simplify_eq]
    refine (applyAll_ends hD hE h1 [0, 2, 3, 4, 5, 6] (by decide) hp ha).bind fun t1 n g1 => ?_
    have hp1 : Unnumbered t1 := ({ M with fuel := n } : Machine V ε).without_within (Shipped.fit f) neg_builtIn (fun o n h => h.1) hp g1
    have ha1 := applyAll_arrives _ ha g1
    refine (derivatives_ends hD hE h1 hp1 ha1).bind fun x n g2 => ?_
    cases x with
    | error e => exact .const ⟨_, rfl⟩
    | ok t2 =>
      dsimp only
      unfold restSimplify
      have hp2 : Unnumbered t2 :=
        (((Machine.applyDerivatives_within ({ M with fuel := n } : Machine V ε) hD (shipped_loaded f) (Shipped.fit f)
          (N := fun _ x => x = 0) (T := fun _ => True) (fun _ _ _ => rfl) rfl hp1).2 _ g2).mono (fun o n h => h.1) (fun _ _ h => h) fun _ h => h)
      refine (applyAll_ends hD hE h1 [0, 2, 3, 4, 5, 6] (by decide) hp2 (derivatives_arrives hp1 ha1 g2)).bind fun t3 n g3 => ?_
      have hf : ∃ r, M.fold t3 = .ok r := by
        have := M.fold_fine t3
        unfold Machine.fold at this ⊢
        dsimp only at this ⊢
        split at this
        · rename_i e p h
          obtain ⟨q', m, g1, g2, -, -⟩ := reduceConst_error _ _ _ _ _ _ h
          rw [List.nil_append] at g1
          subst g1
          exact ⟨.error (.listener e, m.tok), by simp only [errTok, g2]; rfl⟩
        · exact ⟨_, rfl⟩
      obtain ⟨y, hy⟩ := hf
      rw [hy]
      cases y with
      | error e => exact .const ⟨_, rfl⟩
      | ok t4 => exact .const ⟨_, rfl⟩
  have fwd : (∃ n r, ({ M with fuel := n } : Machine V ε).simplify (shippedSimp f) t = .ok r) →
      ∃ n r, ∀ m, n ≤ m → ({ M with fuel := m } : Machine V ε).simplify (shippedSimp f) t = .ok r := by
    rintro ⟨n, r, h⟩
    rcases key.1 n with g | ⟨r', g⟩
    · simp only [g] at h; cases h
    · exact ⟨n, r', g⟩
  by_cases he : ∃ n r, ({ M with fuel := n } : Machine V ε).simplify (shippedSimp f) t = .ok r
  · exact .inl (fwd he)
  · refine .inr ⟨fun m => ?_, key.2.resolve_left he⟩
    rcases key.1 m with g | ⟨r', g⟩
    · exact g
    · exact absurd ⟨m, r', g m (Nat.le_refl _)⟩ he

/-! ## Examples -/

/-- `@5+-a*-b`, where the history is empty. -/
def noTurn (a b : ℚ) (i j k l m : Nat) : Tree ℚ :=
  .op o4 [.op o1 [.const 5 1] 0, .op o6 [.op o12 [.const a i] j, .op o12 [.const b k] l] m] 2

/-- The loop with ruleset 6. -/
def lastLoop (fuel : Nat) (t : Tree ℚ) : Res (Option (Tree ℚ)) :=
  simplifyLoop qD (qM 0).checker qOp (.code .variableEncountered) ((shippedSimp id).rulesets 6) fuel t

theorem input_noTurn : input "@5+-2*-3" = .ok (some (noTurn 2 3 4 3 7 6 5)) := by kernel_rfl

theorem last_0 (n : Nat) : lastLoop (n + 1) (noTurn 2 3 4 3 7 6 5) = lastLoop n (noTurn 3 2 7 5 4 3 5) := by kernel_rfl
theorem last_1 (n : Nat) : lastLoop (n + 1) (noTurn 3 2 7 5 4 3 5) = lastLoop n (noTurn 2 3 4 5 7 5 5) := by kernel_rfl
theorem last_2 (n : Nat) : lastLoop (n + 1) (noTurn 2 3 4 5 7 5 5) = lastLoop n (noTurn 3 2 7 5 4 5 5) := by kernel_rfl
theorem last_3 (n : Nat) : lastLoop (n + 1) (noTurn 3 2 7 5 4 5 5) = lastLoop n (noTurn 2 3 4 5 7 5 5) := by kernel_rfl

theorem last_never : ∀ n, lastLoop n (noTurn 3 2 7 5 4 5 5) = .ok none ∧ lastLoop n (noTurn 2 3 4 5 7 5 5) = .ok none
  | 0 => ⟨rfl, rfl⟩
  | n + 1 => by rw [last_2, last_3]; exact (last_never n).symm

/-- **C76**, violated: ruleset 6 alone goes on forever with `@5+-2*-3`. -/
theorem C76_exchange_witness (n : Nat) :
    (qM n).applySimplification ((shippedSimp id).rulesets 6) (noTurn 2 3 4 3 7 6 5) = .hang := by
  have h : lastLoop n (noTurn 2 3 4 3 7 6 5) = .ok none := by
    match n with
    | 0 => rfl
    | 1 => rw [last_0]; rfl
    | n + 2 => rw [last_0, last_1]; exact (last_never n).2
  exact (congrArg Out.ofFuel h).trans rfl

/-- It multiplies two negated numbers. -/
example : NegatedPair (noTurn 2 3 4 3 7 6 5) := .child (List.mem_cons_of_mem _ List.mem_cons_self) (.here rfl rfl rfl)

/-- `x*-2*-3`: the rule can be applied twice. -/
def twoTurns : Tree ℚ := .op o6 [.op o6 [.var ['x'] 0 0, .op o12 [.const 2 3] 2] 1, .op o12 [.const 3 6] 5] 4

example : input "x*-2*-3" = .ok (some twoTurns) := by kernel_rfl

example : turns twoTurns = 2 := by
  simp [twoTurns, turns, turnsList, turnAt, Tree.isNumber, Tree.isNegated, o6, o12]

theorem twoTurns_pairless : ¬ NegatedPair twoTurns := by
  intro h
  cases h with
  | here _ h => cases h
  | child hm h =>
    simp only [List.mem_cons, List.not_mem_nil, or_false] at hm
    rcases hm with rfl | rfl
    · cases h with
      | here _ h => cases h
      | child hm h =>
        simp only [List.mem_cons, List.not_mem_nil, or_false] at hm
        rcases hm with rfl | rfl
        · cases h
        · cases h with | child hm h => rw [List.mem_singleton.1 hm] at h; cases h
    · cases h with | child hm h => rw [List.mem_singleton.1 hm] at h; cases h

example : ∃ u, ∀ n, (turns twoTurns < n ∧ 2 ≤ n) →
    (qM n).applySimplification ((shippedSimp id).rulesets 6) twoTurns = .ok u := by
  have h6 : BuiltIn o6 2 := ⟨⟨{ o6 with id := 0 }, by decide +kernel, rfl⟩, .inr rfl⟩
  have h12 : BuiltIn o12 1 := ⟨⟨{ o12 with id := 0 }, by decide +kernel, rfl⟩, .inr rfl⟩
  have hn : ∀ v i j, Verif.AllOps BuiltIn (.op o12 [.const v i] j : Tree ℚ) := fun v i j =>
    .op h12 fun c hc => by rw [List.mem_singleton.1 hc]; exact .const
  refine C76_ordering_partial (qM 0) qD_sane id (t := twoTurns) ?_ fun h => twoTurns_pairless h.1
  refine .op h6 fun c hc => ?_
  simp only [List.mem_cons, List.not_mem_nil, or_false] at hc
  rcases hc with rfl | rfl
  · refine .op h6 fun c hc => ?_
    simp only [List.mem_cons, List.not_mem_nil, or_false] at hc
    rcases hc with rfl | rfl
    · exact .var
    · exact hn ..
  · exact hn ..

theorem qD_coherent : Coherent qD := by
  intro a b c h
  have : a = b := by simpa [qD] using h
  rw [this]

/-- `log(x/3, e)-y%` -/
def sugared : Tree ℚ :=
  .op o5 [.op o18 [.op o7 [.var ['x'] 0 2, .const 3 4] 3, .op o53 [] 7] 0, .op o14 [.var ['y'] 0 10] 11] 9

example : input "log(x/3, e)-y%" = .ok (some sugared) := by kernel_rfl

/-- Its weight is 29: the bound. -/
example : (scaleOf qD id 0).weigh sugared = 29 := by
  simp [scaleOf, scale0, sugared, Scale.weigh, Scale.weigh_op, weight0, lin, un, bin, o5, o18, o7, o53, o14]

example : ∃ u, ∀ n, (scaleOf qD id 0).weigh sugared < n →
    (qM n).applySimplification ((shippedSimp id).rulesets 0) sugared = .ok u :=
  C76_phase_partial (qM 0) qD_sane qD_coherent id (by kernel_rfl) (k := 0) (by decide) sugared

theorem negProd_builtIn : Verif.AllOps BuiltIn negProd := by
  have h2 : BuiltIn o2 1 := ⟨⟨{ o2 with id := 0 }, by decide +kernel, rfl⟩, .inr rfl⟩
  have h6 : BuiltIn o6 2 := ⟨⟨{ o6 with id := 0 }, by decide +kernel, rfl⟩, .inr rfl⟩
  have h12 : BuiltIn o12 1 := ⟨⟨{ o12 with id := 0 }, by decide +kernel, rfl⟩, .inr rfl⟩
  unfold negProd
  refine .op h2 fun c hc => ?_
  rw [List.mem_singleton.1 hc]
  refine .op h6 fun c hc => ?_
  simp only [List.mem_cons, List.not_mem_nil, or_false] at hc
  rcases hc with rfl | rfl
  · refine .op h12 fun c hc => ?_
    rw [List.mem_singleton.1 hc]
    exact .const
  · exact .const

theorem negProd_noIds : NoIds negProd := by
  unfold negProd
  refine .op fun c hc => ?_
  rw [List.mem_singleton.1 hc]
  refine .op fun c hc => ?_
  simp only [List.mem_cons, List.not_mem_nil, or_false] at hc
  rcases hc with rfl | rfl
  · refine .op fun c hc => ?_
    rw [List.mem_singleton.1 hc]
    exact .const
  · exact .const

/-- Both cases of `C76_partial` occur: `(-2*3)'` never ends, so it gets stuck; a variable is not changed by anything. -/
example : Stuck (qM 0) id negProd := by
  rcases C76_partial (qM 0) qD_sane qD_coherent id (by kernel_rfl) (t := negProd) negProd_builtIn negProd_noIds with ⟨n, r, h⟩ | ⟨-, h⟩
  · have h := h n (Nat.le_refl _)
    rw [show ({ qM 0 with fuel := n } : Machine ℚ EvalErr) = qM n from rfl, C76_diverges] at h
    cases h
  · exact h

example : ∃ n r, ∀ m, n ≤ m → (qM m).simplify (shippedSimp id) (.var ['x'] 0 0) = .ok r := by
  rcases C76_partial (qM 0) qD_sane qD_coherent id (by kernel_rfl) (t := .var ['x'] 0 0) .var .var with h | ⟨h, -⟩
  · exact h
  · have := h 3
    rw [show ({ qM 0 with fuel := 3 } : Machine ℚ EvalErr).simplify (shippedSimp id) (.var ['x'] 0 0) = .ok (.ok (.var ['x'] 0 0))
      by kernel_rfl] at this
    cases this

end Verif.SimplifyProps
