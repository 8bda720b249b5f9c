import Verif.Props.Simplify
import Verif.Props.RuleSoundness
import Verif.Lemmas.FoldValues
import Verif.Lemmas.KernelRfl

/-!
# C75: values of simplified expressions
-/

namespace Verif.SimplifyProps
open Verif TreeProps RewriteProps SimplProps Relation
variable {I : Interp} {ε : Type}

/-- The shipped rules, with real numbers. -/
noncomputable def realRules : Simp ℝ := shippedSimp fun q => (q : ℝ)

theorem realRules_shipped : RuleProps.Shipped realRules.rulesets := Shipped.rulesAt_shipped _

/-- What `simplify` does to an expression, one move at a time: rule `i` of ruleset `k` is applied, where no rule of the set before it can
be; constants are folded; negative constants are replaced. -/
inductive Move (arith : Op → List ℝ → Except ε ℝ) (ve : ε) : Option (Nat × Nat) → Tree ℝ → Tree ℝ → Prop where
  | rule {k i : Nat} {r : RewriteRule ℝ} {t t' : Tree ℝ} : (realRules.rulesets k)[i]? = some r →
      (∀ j < i, ∀ q, (realRules.rulesets k)[j]? = some q → applyRule realDoubles.eq (realChecker arith ve) q t = .ok none) →
      applyRule realDoubles.eq (realChecker arith ve) r t = .ok (some t') → Move arith ve (some (k, i)) t t'
  | fold {t : Tree ℝ} : Move arith ve none t (reduceConst arith ve t []).1
  | minus {t : Tree ℝ} : Move arith ve none t (replaceNegConsts realDoubles t)

/-- Any number of moves. -/
abbrev Moves (arith : Op → List ℝ → Except ε ℝ) (ve : ε) : Tree ℝ → Tree ℝ → Prop :=
  ReflTransGen fun t t' => ∃ l, Move arith ve l t t'

theorem realChecker_eq (arith : Op → List ℝ → Except ε ℝ) (ve : ε) (fuel : Nat) :
    (⟨realDoubles, arith, ve, fuel⟩ : Machine ℝ ε).checker = realChecker arith ve := by
  funext t
  unfold Machine.checker realChecker
  cases h : propChecker realDoubles arith ve t with
  | ok b => cases b <;> simp
  | ub => simp
  | defect => simp

theorem steps_moves {arith : Op → List ℝ → Except ε ℝ} {ve : ε} {k n : Nat} {R : List (RewriteRule ℝ)} (hR : realRules.rulesets k = R)
    {t u : Tree ℝ} (h : Steps realDoubles.eq (realChecker arith ve) R n t u) : Moves arith ve t u := by
  induction h with
  | zero => exact .refl
  | succ hs _ ih =>
    obtain ⟨pre, r, post, e, g1, g2⟩ := hs
    refine .head ⟨some (k, pre.length), .rule (r := r) ?_ ?_ g2⟩ ih
    · rw [hR, e]; simp
    · intro j hj q hq
      rw [hR, e, List.getElem?_append_left hj] at hq
      exact g1 q (List.mem_of_getElem? hq)

theorem loop_moves {arith : Op → List ℝ → Except ε ℝ} {ve : ε} {k : Nat} : ∀ {fuel : Nat} {t u : Tree ℝ},
    simplifyLoop realDoubles (realChecker arith ve) arith ve (realRules.rulesets k) fuel t = .ok (some u) →
    Moves arith ve t u := by
  intro fuel
  induction fuel with
  | zero => intro t u h; cases h
  | succ fuel ih =>
    intro t u h
    simp only [simplifyLoop] at h
    obtain ⟨r, hr, h⟩ := Res.bind_eq_ok.1 h
    obtain ⟨w, n, rfl, h1, h2, h3⟩ := C31_partial realDoubles.eq (realChecker arith ve) (realRules.rulesets k) 1 1
      (by omega) (by omega) t r hr
    have hw := steps_moves rfl h2
    cases n with
    | zero =>
      cases h
      exact hw.tail ⟨none, .minus⟩
    | succ n => exact hw.trans (.head ⟨none, .fold⟩ (ih h))

theorem apply_moves {arith : Op → List ℝ → Except ε ℝ} {ve : ε} {k fuel : Nat} {t u : Tree ℝ}
    (h : Machine.applySimplification ⟨realDoubles, arith, ve, fuel⟩ (realRules.rulesets k) t = .ok u) : Moves arith ve t u := by
  unfold Machine.applySimplification at h
  rw [realChecker_eq] at h
  exact loop_moves (Out.ofFuel_ok h)

theorem applyAll_moves {arith : Op → List ℝ → Except ε ℝ} {ve : ε} {fuel : Nat} : ∀ {ks : List Nat} {t u : Tree ℝ},
    Machine.applyAll ⟨realDoubles, arith, ve, fuel⟩ realRules.rulesets ks t = .ok u → Moves arith ve t u := by
  intro ks
  induction ks with
  | nil => intro t u h; cases h; exact .refl
  | cons k ks ih =>
    intro t u h
    rw [Machine.applyAll] at h
    obtain ⟨w, h1, h2⟩ := Out.bind_eq_ok.1 h
    exact (apply_moves h1).trans (ih h2)

theorem fold_moves {arith : Op → List ℝ → Except ε ℝ} {ve : ε} {fuel : Nat} {t u : Tree ℝ}
    (h : Machine.fold ⟨realDoubles, arith, ve, fuel⟩ t = .ok (.ok u)) : Moves arith ve t u := by
  unfold Machine.fold at h
  dsimp only at h
  split at h
  · obtain ⟨i, -, h⟩ := Out.bind_eq_ok.1 h
    cases h
  · cases h
    exact .single ⟨none, .fold⟩

/-- Without `'` the first loop of `apply_derivatives` does nothing. -/
theorem shorthand_none {V : Type} (M : Machine V ε) {t : Tree V} (ht : Verif.AllOps (fun o _ => o.id ≠ prime.id) t)
    {fuel : Nat} {r : Except (SimpErr ε × Nat) (Tree V)}
    (h : M.shorthandLoop ⟨primeTree, fun _ => []⟩ derivTree fuel t = .ok r) : r = .ok t := by
  cases fuel with
  | zero => cases h
  | succ fuel =>
    rw [Machine.shorthandLoop] at h
    rcases find_prime M.dbl.eq (fun _ => true) prime (x := ['x']) rfl 0 1 t [] with ⟨h1, -⟩ | ⟨q, s, -, h2⟩
    · have e : findMatching M.dbl.eq (fun _ => true) ⟨primeTree, fun _ => []⟩ t [] = .ok none := h1
      rw [e] at h
      cases h
      rfl
    · exfalso
      have hp := h2.prime
      have hw := (within_of ht).deref h2.deref
      cases s with
      | const => cases hp
      | var => cases hp
      | op o cs i =>
        cases hw with
        | op h1 _ _ =>
          match cs, hp with
          | [c], hp => exact h1 (by simpa [Tree.isPrime] using hp)

/-- Up to the last folding of constants `simplify` makes moves; what it reports is a result or an error of that
folding, or one of the derivatives. -/
theorem simplify_moves {arith : Op → List ℝ → Except ε ℝ} {ve : ε} {fuel : Nat} {t : Tree ℝ} (ht : Verif.AllOps BuiltIn t)
    (hp : Verif.AllOps (fun o _ => o.id ≠ prime.id) t) {r : Except (SimpErr ε × Nat) (Tree ℝ)}
    (h : Machine.simplify ⟨realDoubles, arith, ve, fuel⟩ realRules t = .ok r) :
    (∃ e i, r = .error (e, i) ∧ (e = .malformedB ∨ e = .impossible)) ∨
    ∃ w y, Moves arith ve t w ∧ Machine.fold ⟨realDoubles, arith, ve, fuel⟩ w = .ok y ∧
      r = y.map (replaceNegConsts realDoubles) := by
  unfold Machine.simplify at h
  have hi : (!realRules.initialized) = false := rfl
  rw [if_neg (by rw [hi]; decide)] at h
  obtain ⟨t1, h1, h⟩ := Out.bind_eq_ok.1 h
  have hw : Within (fun o n => BuiltIn o n ∧ o.id ≠ prime.id) (fun _ _ => True) (fun _ => True) t := within_of (ht.and hp)
  have hw1 := Machine.without_within _ (Shipped.fit _) (N := fun _ _ => True) (T := fun _ => True)
    (O := fun o n => BuiltIn o n ∧ o.id ≠ prime.id) ⟨neg_builtIn, by decide⟩ (fun o n h => ⟨h.1, h.2.1⟩)
    (reduceConst_within arith ve hw []) h1
  obtain ⟨x, hx, h⟩ := Out.bind_eq_ok.1 h
  have hd : match x with
      | .ok t2 => Moves arith ve t1 t2
      | .error (e, _) => e = .malformedB ∨ e = .impossible := by
    unfold Machine.applyDerivatives at hx
    have hl := shipped_loaded fun q : ℚ => (q : ℝ)
    rw [show realRules.derivBefore = _ from hl.before, show realRules.derivAfter = _ from hl.after,
      show realRules.malformedDeriv = _ from hl.malformed] at hx
    dsimp only at hx
    obtain ⟨z, hz, hx⟩ := Out.bind_eq_ok.1 hx
    have := shorthand_none _ (hw1.ops.mono fun o n h => h.2) hz
    subst this
    dsimp only at hx
    obtain ⟨m, -, hx⟩ := Out.bind_eq_ok.1 hx
    cases m with
    | some m =>
      obtain ⟨i, -, hx⟩ := Out.bind_eq_ok.1 hx
      cases hx
      exact .inl rfl
    | none =>
      obtain ⟨w, hw, hx⟩ := Out.bind_eq_ok.1 hx
      split at hx
      · cases hx
      · split at hx
        · obtain ⟨i, -, hx⟩ := Out.bind_eq_ok.1 hx
          cases hx
          exact .inr rfl
        · cases hx
          exact apply_moves hw
  cases x with
  | error e => cases h; exact .inl ⟨e.1, e.2, rfl, hd⟩
  | ok t2 =>
    obtain ⟨t3, h3, h⟩ := Out.bind_eq_ok.1 h
    obtain ⟨y, hy, h⟩ := Out.bind_eq_ok.1 h
    refine .inr ⟨t3, y, .head ⟨none, .fold⟩ ((applyAll_moves h1).trans (hd.trans (applyAll_moves h3))), hy, ?_⟩
    cases y with
    | error e => cases h; rfl
    | ok t4 => cases h; rfl

/-- **C75.** The result of `simplify` with the shipped rules is reached by moves, for every expression without `'`. -/
theorem C75_moves {arith : Op → List ℝ → Except ε ℝ} {ve : ε} {fuel : Nat} {t u : Tree ℝ} (ht : Verif.AllOps BuiltIn t)
    (hp : Verif.AllOps (fun o _ => o.id ≠ prime.id) t)
    (h : Machine.simplify ⟨realDoubles, arith, ve, fuel⟩ realRules t = .ok (.ok u)) : Moves arith ve t u := by
  rcases simplify_moves ht hp h with ⟨e, i, h, -⟩ | ⟨w, y, h1, h2, h3⟩
  · cases h
  · cases y with
    | error e => cases h3
    | ok t4 => cases h3; exact h1.trans ((fold_moves h2).tail ⟨none, .minus⟩)

/-- **C75.** No move changes a value, but those with the rules of `unsoundRules` and `lossyRules`. -/
theorem C75_move (hI : I.Right) {arith : Op → List ℝ → Except ε ℝ} {ve : ε} (hf : Follows I arith) {l : Option (Nat × Nat)}
    {t t' : Tree ℝ} (h : Move arith ve l t t') (hl : ∀ p, l = some p → p ∉ unsoundRules ++ lossyRules)
    (env : Str → ℝ) (v : ℝ) (hv : Val I t env v) : Val I t' env v := by
  cases h with
  | rule h1 _ h3 => exact RuleProps.C49_improves hI realRules_shipped h1 (hl _ rfl) ε arith ve hf _ _ h3 env v hv
  | fold => exact (reduceConst_keeps hf t []).1 env v hv
  | minus => exact (replaceNeg_keeps hI t).1 env v hv

/-- What happens to a value along moves. -/
theorem moves_value (hI : I.Right) {arith : Op → List ℝ → Except ε ℝ} {ve : ε} (hf : Follows I arith) {t u : Tree ℝ}
    (hm : Moves arith ve t u) (env : Str → ℝ) (v : ℝ) (hv : Val I t env v) :
    Val I u env v ∨
    ∃ w w' p, Moves arith ve t w ∧ Val I w env v ∧ Move arith ve (some p) w w' ∧ Moves arith ve w' u ∧
      (p ∈ unsoundRules ∨ p ∈ lossyRules ∧ ∀ v', ¬ Val I w' env v') := by
  induction hm using ReflTransGen.head_induction_on with
  | refl => exact .inl hv
  | @head t w h1 h2 ih =>
    obtain ⟨l, hl⟩ := h1
    by_cases hb : ∃ p, l = some p ∧ p ∈ unsoundRules
    · obtain ⟨p, rfl, hp⟩ := hb
      exact .inr ⟨t, w, p, .refl, hv, hl, h2, .inl hp⟩
    by_cases hw : ∃ v', Val I w env v'
    · obtain ⟨v', hv'⟩ := hw
      have hk : Val I w env v := by
        by_cases hc : ∃ p, l = some p ∧ p ∈ lossyRules
        · obtain ⟨p, rfl, hp⟩ := hc
          cases hl with
          | rule g1 g2 g3 =>
            have := RuleProps.C49_partial hI realRules_shipped g1 (fun hu => hb ⟨_, rfl, hu⟩) ε arith ve hf _ _ g3 env v v' hv hv'
            exact this ▸ hv'
        · exact C75_move hI hf hl (fun p hp hm => (List.mem_append.1 hm).elim (fun h => hb ⟨p, hp, h⟩) fun h => hc ⟨p, hp, h⟩) env v hv
      rcases ih hk with ih | ⟨a, b, p, g1, g2⟩
      · exact .inl ih
      · exact .inr ⟨a, b, p, .head ⟨l, hl⟩ g1, g2⟩
    · by_cases hc : ∃ p, l = some p ∧ p ∈ lossyRules
      · obtain ⟨p, rfl, hp⟩ := hc
        exact .inr ⟨t, w, p, .refl, hv, hl, h2, .inr ⟨hp, fun v' h' => hw ⟨v', h'⟩⟩⟩
      · exact absurd ⟨v, C75_move hI hf hl (fun p hp hm => (List.mem_append.1 hm).elim (fun h => hb ⟨p, hp, h⟩)
          fun h => hc ⟨p, hp, h⟩) env v hv⟩ hw

/-- **C75** (partial: it does not hold for all of the shipped rules, see `C75_wrong`): simplification with the shipped rules keeps
every value `v` an expression has.  If it does not, then an expression on the way still has the value `v`, and
one of the rules `unsoundRules` is applied to it, or one of the rules `lossyRules`, after which it has no value any more. -/
theorem C75_partial (hI : I.Right) {arith : Op → List ℝ → Except ε ℝ} {ve : ε} (hf : Follows I arith) {fuel : Nat} {t u : Tree ℝ}
    (ht : Verif.AllOps BuiltIn t) (hp : Verif.AllOps (fun o _ => o.id ≠ prime.id) t)
    (h : Machine.simplify ⟨realDoubles, arith, ve, fuel⟩ realRules t = .ok (.ok u)) (env : Str → ℝ) (v : ℝ) (hv : Val I t env v) :
    Val I u env v ∨
    ∃ w w' p, Moves arith ve t w ∧ Val I w env v ∧ Move arith ve (some p) w w' ∧ Moves arith ve w' u ∧
      (p ∈ unsoundRules ∨ p ∈ lossyRules ∧ ∀ v', ¬ Val I w' env v') :=
  moves_value hI hf (C75_moves ht hp h) env v hv

/-- No derivatives occur. -/
abbrev Plain (t : Tree ℝ) : Prop := Verif.AllOps (fun o _ => o.id ≠ deriv.id) t

theorem first_six : ∀ i < 6, ∀ p, (Shipped.partsOf 1)[i]? = some p → builtB (fun o => decide (o.id ≠ 3)) p.right = true := by
  have : ∀ i < 6, ((Shipped.partsOf 1)[i]?.map fun p => builtB (fun o => decide (o.id ≠ 3)) p.right) = some true := by
    decide +kernel
  intro i hi p hp
  have := this i hi
  rw [hp] at this
  simpa using this

/-- The rules for derivatives are applied only to derivatives, and the other rules introduce none. -/
theorem move_plain (hI : I.Right) {arith : Op → List ℝ → Except ε ℝ} {ve : ε} (hf : Follows I arith) {l : Option (Nat × Nat)}
    {t t' : Tree ℝ} (h : Move arith ve l t t') (ht : Plain t) : Plain t' ∧ ∀ k i, l = some (k, i) → k = 1 → i < 6 := by
  have hw := within_of ht
  cases h with
  | fold => exact ⟨(reduceConst_within arith ve hw []).ops, fun k i h => by cases h⟩
  | minus => exact ⟨(replaceNeg_within realDoubles (by decide) hw).ops, fun k i h => by cases h⟩
  | @rule k i r _ _ g1 g2 g3 =>
    have hr : r ∈ realRules.rulesets k := List.mem_of_getElem? g1
    by_cases hk : k = 1
    · subst hk
      have hi : i < 6 := by
        by_contra hi
        have key : ∃ p o f g j w, Replaced t p (.op o [f, g] j) w t' ∧ o.id = I.deriv := by
          by_cases h7 : i = 7
          · subst h7
            obtain ⟨p, o, f, g, j, w, e1, e2, -⟩ := RuleProps.C50_zero hI realRules_shipped g1 ε arith ve hf _ _ g3
            exact ⟨p, o, f, g, j, w, e1, e2⟩
          · obtain ⟨p, o, f, g, j, w, e1, e2, -⟩ := RuleProps.C50_partial hI realRules_shipped g1 (by omega) h7 ε arith ve hf _ _ g3
            exact ⟨p, o, f, g, j, w, e1, e2⟩
        obtain ⟨p, o, f, g, j, w, e1, e2⟩ := key
        cases Within.sub e1 hw with
        | op h1 _ _ => exact h1 (e2.trans hI.deriv_eq)
      refine ⟨?_, fun k' i' e _ => by cases e; exact hi⟩
      obtain ⟨p, hp, rfl⟩ : ∃ p, (Shipped.partsOf 1)[i]? = some p ∧ r = p.rule fun q => (q : ℝ) := by
        have : ((Shipped.partsOf 1).map fun p => p.rule fun q : ℚ => (q : ℝ))[i]? = some r := g1
        rw [List.getElem?_map, Option.map_eq_some_iff] at this
        obtain ⟨p, hp, e⟩ := this
        exact ⟨p, hp, e.symm⟩
      have hfit := Shipped.parts_fit 1 p (List.mem_of_getElem? hp)
      have hg : GoodRule (fun o _ => o.id ≠ deriv.id) (p.rule fun q : ℚ => (q : ℝ)) := by
        obtain ⟨b, cs, a, h1, h2, h3⟩ := Shipped.rule_good hfit fun q : ℚ => (q : ℝ)
        refine ⟨_, _, _, Shipped.rule_accepted hfit _, ?_, ?_⟩
        · refine builtB_spec (ok := fun o => decide (o.id ≠ 3)) (fun o n h _ => of_decide_eq_true h) _ ?_
          rw [builtB_mapVal]
          exact first_six i hi p hp
        · simp only [Shipped.RuleParts.fits, Bool.and_eq_true] at hfit
          obtain ⟨⟨⟨⟨⟨⟨⟨-, g2⟩, -⟩, -⟩, -⟩, -⟩, -⟩, -⟩ := hfit
          exact Shipped.notVar_mapVal g2 _
      exact (hg.apply g3 hw).ops
    · refine ⟨?_, fun k' i' e hk' => by cases e; exact absurd hk' hk⟩
      have hg := ((Shipped.fit fun q : ℚ => (q : ℝ)).good k r hr).mono (O' := fun o _ => o.id ≠ deriv.id) fun o n ho => by
        rcases ho with ⟨-, -, h⟩ | ⟨-, h⟩
        · exact fun e => hk (h e)
        · rw [h]; decide
      exact (hg.apply g3 hw).ops

theorem moves_plain (hI : I.Right) {arith : Op → List ℝ → Except ε ℝ} {ve : ε} (hf : Follows I arith) {t t' : Tree ℝ}
    (h : Moves arith ve t t') (ht : Plain t) : Plain t' := by
  induction h with
  | refl => exact ht
  | tail _ h ih =>
    obtain ⟨l, hl⟩ := h
    exact (move_plain hI hf hl ih).1

/-- **C75** (partial as above): for expressions without derivatives it is three rules that can change values,
`(x^y)^z -> x^prod(y, z)`, the rule of line 133 and `-(x+y) -> x-y`, and four after which an expression may have no value. -/
theorem C75_plain_partial (hI : I.Right) {arith : Op → List ℝ → Except ε ℝ} {ve : ε} (hf : Follows I arith) {fuel : Nat} {t u : Tree ℝ}
    (ht : Verif.AllOps (fun o n => BuiltIn o n ∧ o.id ≠ prime.id ∧ o.id ≠ deriv.id) t)
    (h : Machine.simplify ⟨realDoubles, arith, ve, fuel⟩ realRules t = .ok (.ok u)) (env : Str → ℝ) (v : ℝ) (hv : Val I t env v) :
    Val I u env v ∨
    ∃ w w' p, Moves arith ve t w ∧ Val I w env v ∧ Move arith ve (some p) w w' ∧ Moves arith ve w' u ∧
      (p ∈ [(3, 29), (3, 37), (5, 6)] ∨ p ∈ [(3, 34), (3, 41), (5, 3), (5, 18)] ∧ ∀ v', ¬ Val I w' env v') := by
  rcases C75_partial hI hf (ht.mono fun o n h => h.1) (ht.mono fun o n h => h.2.1) h env v hv with h | ⟨w, w', p, h1, h2, h3, h4, h5⟩
  · exact .inl h
  · refine .inr ⟨w, w', p, h1, h2, h3, h4, ?_⟩
    have hw := (move_plain hI hf h3 (moves_plain hI hf h1 (ht.mono fun o n h => h.2.2))).2 p.1 p.2 rfl
    rcases h5 with h5 | ⟨h5, h6⟩
    · left
      simp only [unsoundRules, List.mem_cons, List.not_mem_nil, or_false] at h5 ⊢
      rcases h5 with rfl | rfl | rfl | rfl
      · exact .inl rfl
      · exact .inr (.inl rfl)
      · exact .inr (.inr rfl)
      · exact absurd (hw rfl) (by decide)
    · right
      refine ⟨?_, h6⟩
      have : ∀ p ∈ lossyRules, (p.1 = 1 → p.2 < 6) → p ∈ [(3, 34), (3, 41), (5, 3), (5, 18)] := by decide
      exact this p h5 hw

/-! ## Examples -/

section examples
open Shipped RuleProps
set_option maxRecDepth 100000

/-- `+--sin(x)` -/
def signs : Tree ℝ := .op o11 [.op o12 [.op o12 [.op o22 [.var ['x'] 0 5] 3] 2] 1] 0

/-- Its simplification ends with `sin(x)`, for any arithmetic. -/
theorem simplify_signs (arith : Op → List ℝ → Except ε ℝ) (ve : ε) :
    Machine.simplify ⟨realDoubles, arith, ve, 4⟩ realRules signs = .ok (.ok (.op o22 [.var ['x'] 0 5] 3)) := by
  kernel_rfl

/-- The hypotheses of the theorems of this file can be met. -/
example : standard.Right ∧ Follows standard standardArith ∧
    Verif.AllOps (fun o n => BuiltIn o n ∧ o.id ≠ prime.id ∧ o.id ≠ deriv.id) signs ∧
    Machine.simplify ⟨realDoubles, standardArith, (), 4⟩ realRules signs = .ok (.ok (.op o22 [.var ['x'] 0 5] 3)) := by
  refine ⟨standard_right, standardArith_follows, ?_, simplify_signs _ _⟩
  have h11 : BuiltIn o11 1 := ⟨⟨{ o11 with id := 0 }, by decide +kernel, rfl⟩, .inr rfl⟩
  have h12 : BuiltIn o12 1 := ⟨⟨{ o12 with id := 0 }, by decide +kernel, rfl⟩, .inr rfl⟩
  have h22 : BuiltIn o22 1 := ⟨⟨{ o22 with id := 0 }, by decide +kernel, rfl⟩, .inr rfl⟩
  refine .op ⟨h11, by decide, by decide⟩ fun c hc => ?_
  obtain rfl := List.mem_singleton.1 hc
  refine .op ⟨h12, by decide, by decide⟩ fun c hc => ?_
  obtain rfl := List.mem_singleton.1 hc
  refine .op ⟨h12, by decide, by decide⟩ fun c hc => ?_
  obtain rfl := List.mem_singleton.1 hc
  refine .op ⟨h22, by decide, by decide⟩ fun c hc => ?_
  obtain rfl := List.mem_singleton.1 hc
  exact .var

end examples

end Verif.SimplifyProps
