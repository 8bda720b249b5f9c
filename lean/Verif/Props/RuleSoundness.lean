import Verif.Lemmas.RuleSoundness
import Verif.Lemmas.KernelRfl
import Verif.Lemmas.ExactUnique

/-!
# Are the shipped rules right?  (C49, C50)
-/

namespace Verif.RuleProps
open Verif Rules RewriteProps Topology
variable {I : Interp} {ε : Type}

/-- The shipped rules with their numbers as reals. -/
def realParse : Str → Res (Option (Tree ℝ)) := ruleParser fun q : ℚ => (q : ℝ)

/-- These are the rules of the shipped file. -/
def Shipped (rules : Nat → List (RewriteRule ℝ)) : Prop :=
  parseRulesets realParse numRulesets shippedText = .ok (7, rules)

theorem Shipped.of (hI : I.Right) {rules : Nat → List (RewriteRule ℝ)} (h : Shipped rules) (k : Nat) :
    List.Forall₂ RuleOf (dataOf k) (rules k) := by
  obtain ⟨rules', h1, h2⟩ := shipped_rules hI
  unfold Shipped realParse at h
  rw [h1] at h
  simp only [Res.ok.injEq, Prod.mk.injEq, true_and] at h
  subst h
  exact h2 k

theorem Shipped.get (hI : I.Right) {rules : Nat → List (RewriteRule ℝ)} (h : Shipped rules) {k i : Nat}
    {r : RewriteRule ℝ} (hr : (rules k)[i]? = some r) : ∃ d, (dataOf k)[i]? = some d ∧ RuleOf d r := by
  obtain ⟨h1, h2⟩ := forall2_iff.1 (h.of hI k)
  obtain ⟨hi, rfl⟩ := List.getElem?_eq_some_iff.1 hr
  exact ⟨_, List.getElem?_eq_getElem (h1 ▸ hi), h2 i (h1 ▸ hi)⟩

/-- The shipped file is accepted: seven rulesets with 135 rules in all. -/
theorem C49_shipped (hI : I.Right) : ∃ rules, Shipped rules ∧
    (List.range 7).map (fun k => (rules k).length) = [14, 23, 13, 51, 10, 23, 1] := by
  obtain ⟨rules, h1, h2⟩ := shipped_rules hI
  refine ⟨rules, h1, ?_⟩
  have : ∀ k, (rules k).length = (dataOf k).length := fun k => (h2 k).length_eq.symm
  simp only [this]
  rfl

/-- **C49** (partial): all rules but four do not change values. -/
theorem C49_partial (hI : I.Right) {rules : Nat → List (RewriteRule ℝ)} (h : Shipped rules) {k i : Nat}
    {r : RewriteRule ℝ} (hr : (rules k)[i]? = some r) (hu : (k, i) ∉ unsoundRules) : Agrees I r := by
  obtain ⟨d, hd, ho⟩ := h.get hI hr
  refine ho.agrees hI ?_
  match k, hd, hu with
  | 0, hd, hu => exact fair0 hI i d hd hu
  | 1, hd, hu => exact fair1 hI i d hd hu
  | 2, hd, hu => exact fair2 hI i d hd hu
  | 3, hd, hu => exact fair3 hI i d hd hu
  | 4, hd, hu => exact fair4 hI i d hd hu
  | 5, hd, hu => exact fair5 hI i d hd hu
  | 6, hd, hu => exact fair6 hI i d hd hu
  | _ + 7, hd, _ => cases hd

/-- **C49** (partial): most rules keep every value. -/
theorem C49_improves (hI : I.Right) {rules : Nat → List (RewriteRule ℝ)} (h : Shipped rules) {k i : Nat}
    {r : RewriteRule ℝ} (hr : (rules k)[i]? = some r) (hu : (k, i) ∉ unsoundRules ++ lossyRules) :
    Improves I r := by
  obtain ⟨d, hd, ho⟩ := h.get hI hr
  refine ho.improves hI ?_
  match k, hd, hu with
  | 0, hd, hu => exact good0 hI i d hd hu
  | 1, hd, hu => exact good1 hI i d hd hu
  | 2, hd, hu => exact good2 hI i d hd hu
  | 3, hd, hu => exact good3 hI i d hd hu
  | 4, hd, hu => exact good4 hI i d hd hu
  | 5, hd, hu => exact good5 hI i d hd hu
  | 6, hd, hu => exact good6 hI i d hd hu
  | _ + 7, hd, _ => cases hd

/-- Rules that keep values do so however often they are applied. -/
theorem Improves.ruleset {rules : List (RewriteRule ℝ)} (h : ∀ r ∈ rules, Improves I r)
    {arith : Op → List ℝ → Except ε ℝ} {ve : ε} (hf : Follows I arith) (cap fuel : Nat) (t t' : Tree ℝ) (n : Nat)
    (ht : applyRuleset realDoubles.eq (realChecker arith ve) rules cap fuel t = .ok (some (t', n)))
    (env : Str → ℝ) (v : ℝ) (hv : Val I t env v) : Val I t' env v := by
  have key : ∀ fuel counter t,
      applyLoop realDoubles.eq (realChecker arith ve) rules cap fuel counter t = .ok (some (t', n)) →
      Val I t env v → Val I t' env v := by
    intro fuel
    induction fuel with
    | zero => intro _ _ h; cases h
    | succ fuel ih =>
      intro counter t h1 hx
      simp only [applyLoop] at h1
      obtain ⟨y, hy, h1⟩ := Res.bind_eq_ok.1 h1
      cases y with
      | none => cases h1; exact hx
      | some t1 =>
        obtain ⟨pre, r, post, h2, -, h3⟩ := applyFirst_some hy
        have h4 := h r (by rw [h2]; simp) ε arith ve hf t t1 h3 env v hx
        simp only at h1
        split at h1
        · cases h1; exact h4
        · exact ih _ _ h1 h4
  exact key fuel 0 t ht hv

/-- **C49**, **C51**: the rulesets 0, 2, 4 and 6, applied as often as the program does, keep all
values. -/
theorem C49_rulesets (hI : I.Right) {rules : Nat → List (RewriteRule ℝ)} (h : Shipped rules) {k : Nat}
    (hk : k = 0 ∨ k = 2 ∨ k = 4 ∨ k = 6) {arith : Op → List ℝ → Except ε ℝ} {ve : ε} (hf : Follows I arith)
    (cap fuel : Nat) (t t' : Tree ℝ) (n : Nat)
    (ht : applyRuleset realDoubles.eq (realChecker arith ve) (rules k) cap fuel t = .ok (some (t', n)))
    (env : Str → ℝ) (v : ℝ) (hv : Val I t env v) : Val I t' env v := by
  refine Improves.ruleset (fun r hr => ?_) hf cap fuel t t' n ht env v hv
  obtain ⟨i, hi⟩ := List.mem_iff_getElem?.1 hr
  refine C49_improves hI h hi ?_
  rcases hk with rfl | rfl | rfl | rfl <;> simp [unsoundRules, lossyRules]

/-! ## Derivatives -/

/-- **C50** (partial): the rules from number 6 on replace derivatives, and where the right side has a value
it is the derivative.  Number 7 is `deriv(x, z) -> 0`, see `C50_zero`. -/
theorem C50_partial (hI : I.Right) {rules : Nat → List (RewriteRule ℝ)} (h : Shipped rules) {i : Nat}
    {r : RewriteRule ℝ} (hr : (rules 1)[i]? = some r) (hi : 6 ≤ i) (h7 : i ≠ 7) :
    Derives I (fun _ _ => True) r := by
  obtain ⟨d, hd, ho⟩ := h.get hI hr
  obtain ⟨p, z, hl⟩ := deriv1 i d hd hi
  exact ho.derives hI hl (onward1 hI i d hd hi h7)

/-- **C50** (partial): `deriv(x, z) -> 0` is right unless `x` is the variable `z`. -/
theorem C50_zero (hI : I.Right) {rules : Nat → List (RewriteRule ℝ)} (h : Shipped rules)
    {r : RewriteRule ℝ} (hr : (rules 1)[7]? = some r) :
    Derives I (fun f g => ∀ n k k' i i', g = .var n k i → f ≠ .var n k' i') r := by
  obtain ⟨d, hd, ho⟩ := h.get hI hr
  obtain rfl : r1_7 = d := Option.some.inj hd
  exact ho.derives7 hI

/-- **C50**: in the order in which the rules are tried, every step replaces a derivative rightly, or (the
first six rules) keeps all values. -/
theorem C50_step (hI : I.Right) {rules : Nat → List (RewriteRule ℝ)} (h : Shipped rules)
    {arith : Op → List ℝ → Except ε ℝ} {ve : ε} (hf : Follows I arith) {t t' : Tree ℝ} (hn : NoIds t)
    (ht : Step realDoubles.eq (realChecker arith ve) (rules 1) t t') :
    RightStep I t t' := by
  obtain ⟨pre, r, post, h1, h2, h3⟩ := ht
  have hr : (rules 1)[pre.length]? = some r := by rw [h1]; simp
  by_cases h6 : pre.length < 6
  · left
    refine C49_improves hI h hr ?_ ε arith ve hf t t' h3
    have : pre.length = 0 ∨ pre.length = 1 ∨ pre.length = 2 ∨ pre.length = 3 ∨ pre.length = 4 ∨ pre.length = 5 := by
      omega
    rcases this with e | e | e | e | e | e <;> simp [unsoundRules, lossyRules, e]
  · right
    by_cases h7 : pre.length = 7
    · rw [h7] at hr
      obtain ⟨p, o, f, g, j, w, g1, g2, g3⟩ := C50_zero hI h hr ε arith ve hf t t' h3
      refine ⟨p, o, f, g, j, w, g1, g2, g3 ?_⟩
      rintro n k k' i i' rfl rfl
      have hlt : 6 < pre.length := by omega
      have h8 : (rules 1)[6]? = some pre[6] := by
        rw [h1, List.getElem?_append_left hlt, List.getElem?_eq_getElem hlt]
      obtain ⟨d, hd, ho⟩ := h.get hI h8
      obtain rfl : r1_6 = d := Option.some.inj hd
      have hq : (p, Tree.op o [.var n k' i', .var n k i] j) ∈ t.preorder [] :=
        (mem_preorder t [] p _).2 ⟨p, rfl, g1.deref⟩
      have hno := C29_not_applied _ _ _ t (h2 _ (List.getElem_mem hlt)) _ hq
      cases g1.noIds_sub hn with
      | op hs =>
      cases hs (.var n k i) (by simp)
      cases hs (.var n k' i') (by simp)
      obtain ⟨m, hm⟩ := ho.matches6 (realChecker arith ve) (by rw [g2, hI.deriv_eq]) n 0 i' i j
      rw [hm] at hno
      cases hno
    · obtain ⟨p, o, f, g, j, w, g1, g2, g3⟩ := C50_partial hI h hr (by omega) h7 ε arith ve hf t t' h3
      exact ⟨p, o, f, g, j, w, g1, g2, g3 trivial⟩

/-- **C50**: all steps of the derivation are right. -/
theorem C50_steps (hI : I.Right) {rules : Nat → List (RewriteRule ℝ)} (h : Shipped rules)
    {arith : Op → List ℝ → Except ε ℝ} {ve : ε} (hf : Follows I arith) {t t' : Tree ℝ} (hn : NoIds t)
    (cap fuel : Nat) (n : Nat) (hcap : 0 < cap) (hfuel : cap ≤ fuel)
    (ht : applyRuleset realDoubles.eq (realChecker arith ve) (rules 1) cap fuel t = .ok (some (t', n))) :
    Relation.ReflTransGen (RightStep I) t t' := by
  obtain ⟨t1, n1, e, -, hs, -⟩ := C31_partial _ _ _ cap fuel hcap hfuel t _ ht
  cases e
  clear ht
  generalize hr : rules 1 = rs at hs
  induction hs with
  | zero => exact .refl
  | succ h1 _ ih =>
    subst hr
    refine .head (C50_step hI h hf hn h1) (ih ?_)
    obtain ⟨pre, r, post, h2, -, h3⟩ := h1
    have hr : (rules 1)[pre.length]? = some r := by rw [h2]; simp
    obtain ⟨d, -, -, hd⟩ := h.get hI hr
    exact applyRule_noIds (parseRule_accepted hd) h3 hn

/-- **C49**: in the order in which they are tried, the rules for derivatives do not change values. -/
theorem C49_step_deriv (hI : I.Right) {rules : Nat → List (RewriteRule ℝ)} (h : Shipped rules)
    {arith : Op → List ℝ → Except ε ℝ} {ve : ε} (hf : Follows I arith) {t t' : Tree ℝ} (hn : NoIds t)
    (ht : Step realDoubles.eq (realChecker arith ve) (rules 1) t t') (env : Str → ℝ) (v v' : ℝ)
    (hv : Val I t env v) (hv' : Val I t' env v') : v = v' := by
  rcases C50_step hI h hf hn ht with h1 | ⟨p, o, f, g, j, w, h1, h2, h3⟩
  · exact Val.unique hI.unique _ (h1 env v hv) hv'
  · refine h1.val_eq hI.unique (by simp) (fun env v v' hv hv' => ?_) hv hv'
    have hs : Slope I [f, g] env v := by
      simpa only [Val, h2, true_and, ne_eq, not_true_eq_false, false_and, or_false] using hv
    obtain ⟨f', x, k, i, he, F, g1, g2⟩ := slope_iff.1 hs
    cases he
    have hs' := h3 x k i rfl env v' (g1.mono fun y hy => ⟨_, hy⟩) hv'
    refine Val.unique hI.unique (.op o [f, .var x k i] j) hv ?_ (env := env)
    simpa only [Val, h2, true_and, ne_eq, not_true_eq_false, false_and, or_false] using hs'

/-! ## Rules that are not right -/

/-- A variable of an expression. -/
def vr (n : String) : Tree ℝ := .var n.toList 0 0

/-- The rule that is read from a text. -/
def ruleOf! (text : String) : RewriteRule ℝ :=
  match parseRule realParse text.toList with
  | .ok (some r) => r
  | _ => ⟨⟨.const 0 0, fun _ => []⟩, .const 0 0⟩

theorem witness56 : parseRule realParse r5_6.text.toList = .ok (some (ruleOf! r5_6.text)) ∧
    ∀ e c, applyRule e c (ruleOf! r5_6.text) (.op (opAt 12) [.op (opAt 4) [vr "x", vr "y"] 0] 0)
      = .ok (some (.op (opAt 5) [vr "x", vr "y"] 0)) := by
  refine ⟨?_, fun e c => ?_⟩ <;> kernel_rfl

theorem witness329 : parseRule realParse r3_29.text.toList = .ok (some (ruleOf! r3_29.text)) ∧
    ∀ e c, applyRule e c (ruleOf! r3_29.text) (.op (opAt 8) [.op (opAt 8) [vr "x", vr "y"] 0, vr "z"] 0)
      = .ok (some (.op (opAt 8) [vr "x", .op (opAt 44) [vr "y", vr "z"] 0] 0)) := by
  refine ⟨?_, fun e c => ?_⟩ <;> kernel_rfl

theorem witness337 : parseRule realParse r3_37.text.toList = .ok (some (ruleOf! r3_37.text)) ∧
    ∀ e c, applyRule e c (ruleOf! r3_37.text) (.op (opAt 44) [vr "a", .op (opAt 43) [.op (opAt 8) [vr "x", vr "y"] 0] 0,
        .op (opAt 8) [vr "x", vr "z"] 0] 0)
      = .ok (some (.op (opAt 43) [.op (opAt 44) [vr "a", .op (opAt 43) [] 0, .op (opAt 8) [vr "x", vr "z"] 0] 0,
        .op (opAt 8) [vr "x", .op (opAt 43) [vr "y", vr "z"] 0] 0] 0)) := by
  refine ⟨?_, fun e c => ?_⟩ <;> kernel_rfl


/-- The constraint `type(t) != OP`. -/
def typeTest (t : Tree ℝ) : Tree ℝ := .op (opAt 61) [.op (opAt 58) [t] 0, .op (opAt 64) [] 7] 5

theorem witness17 : parseRule realParse r1_7.text.toList = .ok (some (ruleOf! r1_7.text)) ∧
    ∀ e c, c (typeTest (vr "z")) = true → applyRule e c (ruleOf! r1_7.text) (.op (opAt 3) [vr "z", vr "z"] 0)
      = .ok (some (.const ((0 : ℚ) : ℝ) 0)) := by
  refine ⟨by kernel_rfl, fun e c hc => ?_⟩
  have hp : (ruleOf! r1_7.text).pattern.tree = .op (opAt 3) [.var "x".toList 0 2, .var "z".toList 1 5] 0 := by kernel_rfl
  have h0 : (ruleOf! r1_7.text).pattern.constraints 0 = [typeTest (.var "x".toList 0 2)] := by kernel_rfl
  have h1 : (ruleOf! r1_7.text).pattern.constraints 1 = [] := by kernel_rfl
  have hw : (ruleOf! r1_7.text).after = .const ((0 : ℚ) : ℝ) 1 := by kernel_rfl
  have ht : ∀ m : Matching ℝ, m 0 = some [vr "z"] → transformByMatching m (typeTest (.var "x".toList 0 2)) = .ok (typeTest (vr "z")) := by
    intro m hm
    simp [typeTest, transformByMatching, transformNodes, transformNode, Matching.nodes, maxMappedVars, hm, Res.bind_ok, Res.pure_eq, vr, treeCopy]
  have hm : getMatching e c (ruleOf! r1_7.text).pattern (.op (opAt 3) [vr "z", vr "z"] 0)
      = .ok (some ((Matching.empty.bind 0 [vr "z"]).bind 1 [vr "z"])) := by
    have ht' := ht (Matching.empty.bind 0 [vr "z"]) rfl
    have hb : ((Matching.empty : Matching ℝ).bind 0 [vr "z"]) 1 = none := rfl
    have e0 : (Matching.empty : Matching ℝ) 0 = none := rfl
    simp only [String.reduceToList] at hp h0 ht'
    simp [getMatching, getAllMatchings, hp, extendMatching, fillSuffix, suffixLevels, suffixExtend, Res.flatMap,
          Tree.isListVar, isListName, maxMappedVars, checkConstraints, hb, e0,
          h0, h1, ht', hc, Res.pure_eq, Res.bind_ok]
  have hf : findMatching e c (ruleOf! r1_7.text).pattern (.op (opAt 3) [vr "z", vr "z"] 0) []
      = .ok (some ([], (Matching.empty.bind 0 [vr "z"]).bind 1 [vr "z"])) := by
    simp only [findMatching, hm, Res.bind_ok, Res.pure_eq]
  unfold applyRule
  rw [hf, hw]
  rfl

theorem type_not_op {ε : Type} (arith : Op → List ℝ → Except ε ℝ) (ve : ε) : realChecker arith ve (typeTest (vr "z")) = true := by
  have hq : Quiet (vr "z") := TreeProps.AllOps.var
  rw [realChecker_iff]
  simp only [typeTest, propChecker, Bool.false_eq_true, if_false, if_true, reduceOps, reduceOpsList, reduce_type hq, opAt_t61, opAt_e61, opAt_t58, opAt_t64, opAt_e64, Res.pure_eq, typeEval,
    treeReduce, reduceArgs, propEval_61 opAt_i61, propEval_64 opAt_i64, binary, Doubles.bool, Res.bind_ok]
  simp [realDoubles, Doubles.kind, vr]

theorem not_agrees {r : RewriteRule ℝ} {d : RuleData} (ho : RuleOf d r)
    (hp : parseRule realParse d.text.toList = .ok (some (ruleOf! d.text))) {t t' : Tree ℝ}
    (ha : applyRule eqR (realChecker (fun _ _ => .error ()) ()) (ruleOf! d.text) t = .ok (some t')) {env : Str → ℝ}
    {v v' : ℝ} (hv : Val I t env v) (hv' : Val I t' env v') (hne : v ≠ v') : ¬ Agrees I r := by
  intro h
  obtain ⟨-, h2⟩ := ho
  unfold realParse at hp
  rw [h2] at hp
  simp only [Res.ok.injEq, Option.some.injEq] at hp
  subst hp
  exact hne (h Unit (fun _ _ => .error ()) () (fun _ _ _ _ h => nomatch h) t t' ha env v v' hv hv')

theorem Val.of_op (hI : I.Right) {k : Nat} {cs : List (Tree ℝ)} {i : Nat} {env : Str → ℝ} {vs : List ℝ} {v : ℝ}
    (hid : (opAt k).id = k) (h3 : k ≠ 3) (h1 : Vals I cs env vs) (h2 : I.fn k vs v) : Val I (.op (opAt k) cs i) env v := by
  simp only [Val, hid, hI.deriv_eq]
  exact .inr ⟨h3, vs, h1, h2⟩

theorem Vals.mk {c : Tree ℝ} {cs : List (Tree ℝ)} {env : Str → ℝ} {vs : List ℝ} {v : ℝ} (h1 : Val I c env v)
    (h2 : Vals I cs env vs) : Vals I (c :: cs) env (v :: vs) := by
  simp only [Vals]
  exact ⟨v, vs, rfl, h1, h2⟩

theorem Vals.none {env : Str → ℝ} : Vals I [] env [] := by simp only [Vals]

theorem Val.of_var {n : String} {env : Str → ℝ} : Val I (vr n) env (env n.toList) := by simp only [vr, Val]

/-- **C49** fails for these rules. -/
theorem C49_unsound (hI : I.Right) {rules : Nat → List (RewriteRule ℝ)} (h : Shipped rules) {k i : Nat}
    {r : RewriteRule ℝ} (hr : (rules k)[i]? = some r) (hu : (k, i) ∈ unsoundRules) : ¬ Agrees I r := by
  obtain ⟨d, hd, ho⟩ := h.get hI hr
  simp only [unsoundRules, List.mem_cons, Prod.mk.injEq, List.not_mem_nil, or_false] at hu
  rcases hu with ⟨rfl, rfl⟩ | ⟨rfl, rfl⟩ | ⟨rfl, rfl⟩ | ⟨rfl, rfl⟩
  · obtain rfl : r3_29 = d := Option.some.inj hd
    let env : Str → ℝ := fun n => if n = "x".toList then -1 else if n = "y".toList then 2 else 1 / 2
    have ex : env "x".toList = -1 := by simp [env]
    have ey : env "y".toList = 2 := by simp [env]
    have ez : env "z".toList = 1 / 2 := by simp [env]
    refine not_agrees ho witness329.1 (witness329.2 _ _) (env := env) (v := 1) (v' := -1) ?_ ?_ (by norm_num)
    · refine Val.of_op hI (by decide +kernel) (by decide) (Vals.mk (Val.of_op hI (v := 1) (by decide +kernel) (by decide)
        (Vals.mk Val.of_var (Vals.mk Val.of_var Vals.none)) ?_) (Vals.mk Val.of_var Vals.none)) ?_
      · rw [fn_pow hI, ex, ey]
        exact .inr (.inr ⟨by norm_num, 2, by norm_num, by norm_num⟩)
      · rw [fn_pow hI, ez]
        exact .inl ⟨by norm_num, by simp⟩
    · refine Val.of_op hI (by decide +kernel) (by decide) (Vals.mk Val.of_var (Vals.mk (Val.of_op hI (v := 1) (by decide +kernel) (by decide)
        (Vals.mk Val.of_var (Vals.mk Val.of_var Vals.none)) ?_) Vals.none)) ?_
      · rw [fn_prod hI, ey, ez]; norm_num
      · rw [fn_pow hI, ex]
        exact .inr (.inr ⟨by norm_num, 1, by norm_num, by norm_num⟩)
  · obtain rfl : r3_37 = d := Option.some.inj hd
    let env : Str → ℝ := fun n => if n = "a".toList then 2 else 1
    have ea : env "a".toList = 2 := by simp [env]
    have ex : env "x".toList = 1 := by simp [env]
    have ey : env "y".toList = 1 := by simp [env]
    have ez : env "z".toList = 1 := by simp [env]
    have p1 : ∀ y, I.fn 8 [1, y] 1 := fun y => by
      rw [fn_pow hI]; exact .inl ⟨by norm_num, by simp⟩
    refine not_agrees ho witness337.1 (witness337.2 _ _) (env := env) (v := 2) (v' := 1) ?_ ?_ (by norm_num)
    · refine Val.of_op hI (by decide +kernel) (by decide) (Vals.mk Val.of_var (Vals.mk (Val.of_op hI (v := 1) (by decide +kernel) (by decide)
        (Vals.mk (Val.of_op hI (v := 1) (by decide +kernel) (by decide) (Vals.mk Val.of_var (Vals.mk Val.of_var Vals.none)) ?_)
          Vals.none) ?_) (Vals.mk (Val.of_op hI (v := 1) (by decide +kernel) (by decide)
            (Vals.mk Val.of_var (Vals.mk Val.of_var Vals.none)) ?_) Vals.none))) ?_
      · rw [ex]; exact p1 _
      · rw [fn_sum hI]; simp
      · rw [ex]; exact p1 _
      · rw [fn_prod hI, ea]; simp
    · refine Val.of_op hI (by decide +kernel) (by decide) (Vals.mk (Val.of_op hI (v := 0) (by decide +kernel) (by decide)
        (Vals.mk Val.of_var (Vals.mk (Val.of_op hI (v := 0) (by decide +kernel) (by decide) Vals.none ?_) (Vals.mk
          (Val.of_op hI (v := 1) (by decide +kernel) (by decide) (Vals.mk Val.of_var (Vals.mk Val.of_var Vals.none)) ?_)
          Vals.none))) ?_) (Vals.mk (Val.of_op hI (v := 1) (by decide +kernel) (by decide) (Vals.mk Val.of_var (Vals.mk
            (Val.of_op hI (v := 2) (by decide +kernel) (by decide) (Vals.mk Val.of_var (Vals.mk Val.of_var Vals.none)) ?_)
            Vals.none)) ?_) Vals.none)) ?_
      · rw [fn_sum hI]; simp
      · rw [ex]; exact p1 _
      · rw [fn_prod hI]; simp
      · rw [fn_sum hI, ey, ez]; norm_num
      · rw [ex]; exact p1 _
      · rw [fn_sum hI]; simp
  · obtain rfl : r5_6 = d := Option.some.inj hd
    refine not_agrees ho witness56.1 (witness56.2 _ _) (env := fun _ => 1) (v := -2) (v' := 0) ?_ ?_ (by norm_num)
    · refine Val.of_op hI (by decide +kernel) (by decide) (Vals.mk (Val.of_op hI (v := 2) (by decide +kernel) (by decide)
        (Vals.mk Val.of_var (Vals.mk Val.of_var Vals.none)) ?_) Vals.none) ?_
      · rw [fn_add hI]; norm_num
      · rw [fn_neg hI]
    · refine Val.of_op hI (by decide +kernel) (by decide) (Vals.mk Val.of_var (Vals.mk Val.of_var Vals.none)) ?_
      rw [fn_sub hI]; norm_num
  · obtain rfl : r1_7 = d := Option.some.inj hd
    refine not_agrees ho witness17.1 (witness17.2 _ _ (type_not_op _ _)) (env := fun _ => 1) (v := 1) (v' := 0) ?_ ?_
      (by norm_num)
    · simp only [Val, hI.deriv_eq]
      refine .inl ⟨by decide +kernel, ?_⟩
      refine slope_iff.2 ⟨_, _, _, _, rfl, fun y => y, ?_, hasDerivAt_id' _⟩
      exact Filter.Eventually.of_forall fun y => by simp [Val, vr]
    · simp [Val]

/-! ## Examples -/

/-- The hypotheses of the theorems of this file can be met. -/
example : ∃ rules, standard.Right ∧ Shipped rules ∧ Follows standard standardArith :=
  let ⟨rules, h, _⟩ := C49_shipped standard_right
  ⟨rules, standard_right, h, standardArith_follows⟩

/-- `-(x + y)` has the value -2 at 1, 1. -/
example : Val standard (.op (opAt 12) [.op (opAt 4) [vr "x", vr "y"] 0] 0) (fun _ => 1) (-2) := by
  refine Val.of_op standard_right (by decide +kernel) (by decide) (Vals.mk (Val.of_op standard_right (v := 2)
    (by decide +kernel) (by decide) (Vals.mk Val.of_var (Vals.mk Val.of_var Vals.none)) ?_) Vals.none) ?_
  · rw [fn_add standard_right]; norm_num
  · rw [fn_neg standard_right]

/-- A derivative is replaced: `deriv(ln(x), x)` by `deriv(x, x) * x^(-1)` with the rule for logarithms. -/
example : ∀ e c, applyRule e c (ruleOf! r1_22.text) (.op (opAt 3) [.op (opAt 19) [vr "x"] 0, vr "x"] 0)
    = .ok (some (.op (opAt 6) [.op (opAt 3) [vr "x", vr "x"] 0, .op (opAt 8) [vr "x", .op (opAt 12) [.const ((1 : ℚ) : ℝ) 0] 0] 0] 0)) := by
  intro e c
  kernel_rfl

end Verif.RuleProps
