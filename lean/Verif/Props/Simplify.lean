import Verif.Lemmas.ShippedConds
import Verif.Props.Simplification
import Verif.Props.Session
import Verif.Spec.RuleSound

/-!
# C63, C78–C80: loading rules, derivatives, results of `simplify`
-/

namespace Verif.SimplifyProps
open Verif TreeProps RewriteProps SimplProps SessionProps
variable {V ε ρ : Type}

/-! ## C63 -/

/-- **C63** (partial: there is no function `x` or `z`): in every state of a session loading the rules has
the result it has in a fresh session, for every file.  The numbers are not among the tokens of the helper
patterns. -/
theorem C63_same_partial (K : Client V ε ρ) (s : Session V ρ) (D : List (FunDef V)) (hD : Sess s D)
    (hx : ∀ d ∈ D, d.op.name ≠ ['x'] ∧ d.op.name ≠ ['z']) (hs : ∀ tok ∈ helperToks, K.strtod tok = none)
    (c : Ctx) (hc : arithCtx = .ok c) (parse : Str → Res (Option (Tree V))) (file : Option Str) (s0 : Simp V) :
    loadSimplification (parseEasy s.ctx K.strtod) parse file s0 = loadSimplification (parseEasy c K.strtod) parse file s0 := by
  have hu : ∀ u ∈ D.map (·.op), u.name ≠ ['x'] ∧ u.name ≠ ['z'] := by
    intro u hu
    obtain ⟨d, hd, rfl⟩ := List.mem_map.1 hu
    exact hx d hd
  obtain ⟨h1, h2⟩ := parse_helper hD.ctx hu hs
  obtain ⟨h3, h4⟩ := parse_helper (fresh_holds hc) (by simp) hs
  unfold loadSimplification initSimplification
  cases file with
  | none => rfl
  | some text => simp only [h1, h2, h3, h4]

/-- **C63** (partial as above): the shipped file is loaded completely: all 135 rules, and the patterns for
derivatives are there. -/
theorem C63_shipped_partial (K : Client V ε ρ) (s : Session V ρ) (D : List (FunDef V)) (hD : Sess s D)
    (hx : ∀ d ∈ D, d.op.name ≠ ['x'] ∧ d.op.name ≠ ['z']) (hs : ∀ tok ∈ helperToks, K.strtod tok = none)
    (f : ℚ → V) (s0 : Simp V) :
    loadSimplification (parseEasy s.ctx K.strtod) (ruleParser f) (some shippedText) s0 = .ok (true, shippedSimp f) := by
  have hu : ∀ u ∈ D.map (·.op), u.name ≠ ['x'] ∧ u.name ≠ ['z'] := by
    intro u hu
    obtain ⟨d, hd, rfl⟩ := List.mem_map.1 hu
    exact hx d hd
  unfold loadSimplification
  rw [init_shipped hD.ctx hu hs]
  rfl

/-! ## C78 -/

/-- `'`, `deriv` and the variable `z` of the helper patterns. -/
abbrev prime : Op := Shipped.o2
abbrev deriv : Op := Shipped.o3

/-- They are the operators of the context. -/
theorem C78_operators (c : Ctx) (hc : arithCtx = .ok c) :
    (∃ a, c.lookup "'".toList .postfix = .ok (some (a, prime))) ∧
    (∃ a, c.lookup "deriv".toList .function = .ok (some (a, deriv))) := by
  have key : (match arithCtx with
    | .ok c => (match c.lookup "'".toList .postfix with
        | .ok (some (_, o)) => decide (o = prime)
        | _ => false) && (match c.lookup "deriv".toList .function with
        | .ok (some (_, o)) => decide (o = deriv)
        | _ => false)
    | _ => false) = true := by decide +kernel
  rw [hc] at key
  simp only [Bool.and_eq_true] at key
  obtain ⟨h1, h2⟩ := key
  constructor
  · split at h1
    · rename_i a o h
      exact ⟨a, (of_decide_eq_true h1) ▸ h⟩
    · cases h1
  · split at h2
    · rename_i a o h
      exact ⟨a, (of_decide_eq_true h2) ▸ h⟩
    · cases h2

/-- `deriv(a, b)` where `b` is not a variable, with the token number `i`, occurs in `u`. -/
def WrongDeriv (u : Tree V) (i : Nat) : Prop :=
  ∃ p a b, (p, Tree.op deriv [a, b] i) ∈ u.preorder [] ∧ ∀ n x j, b ≠ .var n x j

theorem builtIn_plain {t : Tree V} (ht : Verif.AllOps BuiltIn t) (hn : NoIds t) : PlainPrime prime t := by
  induction ht with
  | const => exact .const trivial
  | var => cases hn with | var => exact .var rfl
  | @op o cs i h1 _ ih =>
    cases hn with
    | op hn =>
      refine .op (fun ho => ⟨?_, h1.prime ho⟩) trivial fun c hc => ih c hc (hn c hc)
      obtain ⟨⟨q, hq, e⟩, -⟩ := h1
      rw [show o.id = 2 from ho] at hq e
      have h2 : arithOps[2]? = some { Shipped.o2 with id := 0 } := by decide +kernel
      rw [h2] at hq
      cases hq
      exact e

theorem within_of {t : Tree V} {O : Op → Nat → Prop} (h : Verif.AllOps O t) : Within O (fun _ _ => True) (fun _ => True) t := by
  induction h with
  | const => exact .const trivial
  | var => exact .var trivial
  | op h _ ih => exact .op h trivial ih

theorem primes_le (id : Nat) (t : Tree V) : ∀ p, t.primes id ≤ (t.preorder p).length := by
  refine Tree.rec (motive_1 := fun t => ∀ p, t.primes id ≤ (t.preorder p).length)
    (motive_2 := fun l => ∀ p k, Tree.primesList id l ≤ (Tree.preorders p k l).length) ?_ ?_ ?_ ?_ ?_ t
  · intro v i p; simp [Tree.primes]
  · intro n x i p; simp [Tree.primes]
  · intro o cs i ih p
    have := ih p 0
    simp only [Tree.primes, Tree.preorder, List.length_cons]
    split <;> omega
  · intro p k; simp [Tree.primesList]
  · intro c cs h1 h2 p k
    have := h1 (p ++ [k])
    have := h2 p (k + 1)
    simp only [Tree.primesList, Tree.preorders, List.length_append]
    omega

theorem builtIn_deriv {o : Op} {n : Nat} (h : BuiltIn o n) (ho : o.id = deriv.id) : o = deriv ∧ n = 2 := by
  obtain ⟨⟨q, hq, e⟩, ha⟩ := h
  rw [show o.id = 3 from ho] at hq e
  have h2 : arithOps[3]? = some { Shipped.o3 with id := 0 } := by decide +kernel
  rw [h2] at hq
  cases hq
  subst e
  rcases ha with h | h
  · cases h
  · cases h; exact ⟨rfl, rfl⟩

theorem wrongDeriv_iff {u : Tree V} (hu : Verif.AllOps BuiltIn u) {p : Path} {n : Tree V} (h : (p, n) ∈ u.preorder []) :
    n.isWrongDeriv = true ↔ ∃ a b i, n = .op deriv [a, b] i ∧ ∀ n x j, b ≠ .var n x j := by
  constructor
  · intro hw
    rw [deref_iff] at h
    have hn := (within_of hu).deref h
    cases n with
    | const => cases hw
    | var => cases hw
    | op o cs i =>
      match cs, hw, hn with
      | [a, b], hw, hn =>
        simp only [Tree.isWrongDeriv, Bool.and_eq_true, beq_iff_eq, Bool.not_eq_true'] at hw
        cases hn with
        | op h1 _ _ =>
          obtain ⟨rfl, -⟩ := builtIn_deriv h1 hw.1
          refine ⟨a, b, i, rfl, ?_⟩
          rintro n x j rfl
          simp [Tree.isVarNode] at hw
  · rintro ⟨a, b, i, rfl, hb⟩
    cases b with
    | var n x j => exact absurd rfl (hb n x j)
    | const => rfl
    | op => rfl

/-- **C78.** How derivatives are treated: `e'` stands for `deriv(e, v)` where `v` is the only variable of
`e`, or for `deriv(e, z)` if it has none.  There are three errors: `e'` with more than one variable;
`deriv(a, b)` where `b` is not a variable; a derivative that is left when no rule applies any more.  Each is reported
with the token of an operator to blame.  Otherwise all derivatives have been eliminated by the
rules for derivatives. -/
theorem C78_derivatives (M : Machine V ε) (hD : M.dbl.Sane) {s : Simp V} (hl : Loaded s) {t : Tree V}
    (ht : Verif.AllOps BuiltIn t) (hn : NoIds t) (hf : (t.preorder []).length < M.fuel)
    {r : Except (SimpErr ε × Nat) (Tree V)} (h : M.applyDerivatives s t = .ok r) :
    match (generalizing := false) r with
    | .error (.malformedA, i) => Ambiguous prime t i
    | .error (.malformedB, i) => ∃ u, Explicit prime deriv (.var ['z'] 0 5) t u ∧ WrongDeriv u i
    | .error (.impossible, i) => ∃ u w, Explicit prime deriv (.var ['z'] 0 5) t u ∧ (∀ j, ¬ WrongDeriv u j) ∧
        M.applySimplification (s.rulesets 1) u = .ok w ∧ ∃ p o cs, (p, Tree.op o cs i) ∈ w.preorder [] ∧ o.id = deriv.id
    | .error (.listener _, _) => False
    | .ok w => ∃ u, Explicit prime deriv (.var ['z'] 0 5) t u ∧ (∀ j, ¬ WrongDeriv u j) ∧
        M.applySimplification (s.rulesets 1) u = .ok w ∧ Verif.AllOps (fun o _ => o.id ≠ deriv.id) w := by
  have hpl := builtIn_plain ht hn
  have hf' : t.primes prime.id < M.fuel := Nat.lt_of_le_of_lt (primes_le _ t []) hf
  unfold Machine.applyDerivatives at h
  rw [hl.before, hl.after, hl.malformed] at h
  dsimp only at h
  have hw := M.shorthand_within (O := BuiltIn) (N := fun _ _ => True) (T := fun _ => True) deriv_builtIn
    (fun _ _ _ => trivial) trivial M.fuel t (within_of ht)
  rcases M.shorthand_exact (prime := prime) (deriv := deriv) (by decide) (x := ['x']) rfl (j := 0) (k := 1) (i := 0)
    (a := .var ['x'] 0 2) (z := ['z']) (zx := 0) (zi := 5) M.fuel t hpl rfl hf' with ⟨u, h1, h2⟩ | ⟨i, h1, h2⟩
  · have e : M.shorthandLoop ⟨primeTree, fun _ => []⟩ derivTree M.fuel t = .ok (.ok u) := h1
    have hu : Verif.AllOps BuiltIn u := by
      rcases hw with hw | ⟨u', hw, g, -⟩ | ⟨i, hw, -⟩
      · rw [e] at hw; cases hw
      · rw [e] at hw; cases hw; exact g.ops
      · rw [e] at hw; cases hw
    rw [e, Out.bind_ok] at h
    dsimp only at h
    rcases M.find_malformed hD (hu.mono fun o n h => h.id) with ⟨g1, g2⟩ | ⟨p, m, n, g1, g2, g3⟩
    · have hno : ∀ j, ¬ WrongDeriv u j := by
        rintro j ⟨p, a, b, hp, hb⟩
        have := (wrongDeriv_iff hu hp).2 ⟨a, b, j, rfl, hb⟩
        rw [g2 _ hp] at this
        cases this
      rw [g1] at h
      simp only [Out.of, Out.bind_ok] at h
      obtain ⟨w, hw', h⟩ := Out.bind_eq_ok.1 h
      simp only [derivTree, Tree.rootOp] at h
      cases ho : findOpNode Shipped.o3.id w [] with
      | none =>
        rw [ho] at h
        cases h
        exact ⟨u, h2, hno, hw', findOpNode_none ho⟩
      | some p =>
        rw [ho] at h
        obtain ⟨o, cs, i, g4, g5⟩ := Machine.find_op ho
        simp only [errTok, g4] at h
        cases h
        exact ⟨u, w, h2, hno, hw', p, o, cs, deref_iff.2 g4, g5⟩
    · rw [g1] at h
      simp only [Out.of, Out.bind_ok, errTok, g2] at h
      cases h
      have hp := deref_iff.2 g2
      obtain ⟨a, b, i, rfl, hb⟩ := (wrongDeriv_iff hu hp).1 g3
      exact ⟨u, h2, p, a, b, hp, hb⟩
  · have e : M.shorthandLoop ⟨primeTree, fun _ => []⟩ derivTree M.fuel t = .ok (.error (.malformedA, i)) := h1
    rw [e, Out.bind_ok] at h
    cases h
    exact h2

/-! ## C79, C80 -/

theorem deref_snoc {t : Tree V} {p : Path} {o : Op} {cs : List (Tree V)} {i k : Nat} {c : Tree V}
    (h : t.deref p = some (.op o cs i)) (hk : cs[k]? = some c) : t.deref (p ++ [k]) = some c := by
  induction p generalizing t with
  | nil =>
    have : t = .op o cs i := by cases t <;> simpa [Tree.deref] using h
    subst this
    cases c <;> simp [Tree.deref, hk]
  | cons j p ih =>
    cases t with
    | const => cases h
    | var => cases h
    | op q ds m =>
      simp only [Tree.deref, List.cons_append] at h ⊢
      split at h
      · rename_i d hd
        exact ih h
      · cases h

/-- A tree is within its own limits. -/
theorem within_self {t : Tree V} (h : Verif.AllOps BuiltIn t) :
    Within BuiltIn (fun n _ => n ∈ t.varNames ∨ n = ['z']) t.HasTok t := by
  have key : ∀ s : Tree V, Verif.AllOps BuiltIn s → (∀ n ∈ s.names, n ∈ t.varNames) → ∀ p, t.deref p = some s →
      Within BuiltIn (fun n _ => n ∈ t.varNames ∨ n = ['z']) t.HasTok s := by
    intro s hs
    induction hs with
    | @const v i =>
      intro _ p hp
      exact .const ⟨p, _, deref_iff.2 hp, rfl, by simp⟩
    | @var n x i =>
      intro hn p hp
      exact .var (.inl (hn n (by simp [Tree.names])))
    | @op o cs i h1 _ ih =>
      intro hn p hp
      refine .op h1 ⟨p, _, deref_iff.2 hp, rfl, by simp⟩ fun c hc => ?_
      obtain ⟨k, hk⟩ := List.getElem?_of_mem hc
      refine ih c hc (fun n hm => hn n ?_) (p ++ [k]) ?_
      · simp only [Tree.names]
        exact namesList_mem.2 ⟨c, hc, hm⟩
      · exact deref_snoc hp hk
  exact key t h (fun n hn => by rwa [varNames_eq]) [] (by cases t <;> rfl)

theorem shipped_loaded (f : ℚ → V) : Loaded (shippedSimp f) := ⟨rfl, rfl, rfl, rfl⟩

/-- **C79.** What is left by a successful simplification with the shipped rules: only operators of the arithmetic context,
each with a number of operands it can have, no derivatives, no variables but those of the
expression and `z`, and no negative constants. -/
theorem C79_result (M : Machine V ε) (hD : M.dbl.Sane) (f : ℚ → V) {t u : Tree V} (ht : Verif.AllOps BuiltIn t)
    (h : M.simplify (shippedSimp f) t = .ok (.ok u)) :
    Verif.AllOps (fun o n => BuiltIn o n ∧ o.id ≠ prime.id ∧ o.id ≠ deriv.id) u ∧
    (∀ n ∈ u.varNames, n ∈ t.varNames ∨ n = "z".toList) ∧
    ((∀ v, M.dbl.lt v (M.dbl.ofNat 0) = true → M.dbl.lt (M.dbl.fabs v) (M.dbl.ofNat 0) = false) →
      AllConsts (fun v => M.dbl.lt v (M.dbl.ofNat 0) = false) u) := by
  have hw := (M.simplify_within hD (shipped_loaded f) (Shipped.fit f) (fun n _ h => h) (.inr rfl) (within_self ht)).2 _ h
  refine ⟨hw.ops, ?_, fun habs => ?_⟩
  · intro n hn
    rw [varNames_eq] at hn
    obtain ⟨x, hx⟩ := hw.names hn
    exact hx
  · unfold Machine.simplify at h
    simp only [shippedSimp, Bool.not_true, Bool.false_eq_true, if_false] at h
    obtain ⟨t1, -, h⟩ := Out.bind_eq_ok.1 h
    obtain ⟨x, -, h⟩ := Out.bind_eq_ok.1 h
    cases x with
    | error e => cases h
    | ok t2 =>
      obtain ⟨t3, -, h⟩ := Out.bind_eq_ok.1 h
      obtain ⟨y, -, h⟩ := Out.bind_eq_ok.1 h
      cases y with
      | error e => cases h
      | ok t4 => cases h; exact C56_nonnegative _ habs t4

theorem replaceNeg_evaluated (D : Doubles V) (t : Tree V) : ∀ p, (∀ q ∈ t.preorder p, ∀ o cs i, q.2 = .op o cs i → ¬ Ground q.2) →
    Evaluated negOp (replaceNegConsts D t) ∧ (replaceNegConsts D t).names = t.names := by
  refine Tree.rec
    (motive_1 := fun t => ∀ p, (∀ q ∈ t.preorder p, ∀ o cs i, q.2 = .op o cs i → ¬ Ground q.2) →
      Evaluated negOp (replaceNegConsts D t) ∧ (replaceNegConsts D t).names = t.names)
    (motive_2 := fun l => ∀ p k, (∀ q ∈ Tree.preorders p k l, ∀ o cs i, q.2 = .op o cs i → ¬ Ground q.2) →
      (∀ c ∈ replaceNegConstsList D l, Evaluated negOp c) ∧ Tree.namesList (replaceNegConstsList D l) = Tree.namesList l)
    ?_ ?_ ?_ ?_ ?_ t
  · intro v i p _
    rw [replaceNegConsts]
    split
    · exact ⟨.negated, rfl⟩
    · exact ⟨.const, rfl⟩
  · intro n x i p _
    exact ⟨.var, rfl⟩
  · intro o cs i ih p h
    obtain ⟨h1, h2⟩ := ih p 0 fun q hq => h q (by simp [Tree.preorder, hq])
    have hg := h (p, .op o cs i) (by simp [Tree.preorder]) o cs i rfl
    rw [ground_iff] at hg
    rw [replaceNegConsts]
    obtain ⟨n, hn⟩ := List.exists_mem_of_ne_nil _ hg
    refine ⟨.op (n := n) ?_ h1, ?_⟩
    · rw [varNames_eq]
      simp only [Tree.names, h2] at hn ⊢
      exact hn
    · simp only [Tree.names, h2]
  · intro p k _
    exact ⟨by simp [replaceNegConstsList], rfl⟩
  · intro c cs h1 h2 p k h
    obtain ⟨a1, a2⟩ := h1 (p ++ [k]) fun q hq => h q (by simp [Tree.preorders, hq])
    obtain ⟨b1, b2⟩ := h2 p (k + 1) fun q hq => h q (by simp [Tree.preorders, hq])
    rw [replaceNegConstsList]
    refine ⟨?_, by simp [Tree.namesList, a2, b2]⟩
    intro d hd
    rcases List.mem_cons.1 hd with rfl | hd
    · exact a1
    · exact b1 d hd

/-- **C79.** Nothing is left to be evaluated in a result of `simplify`, with whatever rules. -/
theorem C79_evaluated (M : Machine V ε) {s : Simp V} (hs : s.initialized = true) {t u : Tree V}
    (h : M.simplify s t = .ok (.ok u)) : Evaluated negOp u := by
  unfold Machine.simplify at h
  simp only [hs, Bool.not_true, Bool.false_eq_true, if_false] at h
  obtain ⟨t1, -, h⟩ := Out.bind_eq_ok.1 h
  obtain ⟨x, -, h⟩ := Out.bind_eq_ok.1 h
  cases x with
  | error e => cases h
  | ok t2 =>
    obtain ⟨t3, -, h⟩ := Out.bind_eq_ok.1 h
    obtain ⟨y, hy, h⟩ := Out.bind_eq_ok.1 h
    cases y with
    | error e => cases h
    | ok t4 =>
      cases h
      unfold Machine.fold at hy
      dsimp only at hy
      split at hy
      · obtain ⟨i, -, hy⟩ := Out.bind_eq_ok.1 hy
        cases hy
      · rename_i hn
        cases hy
        exact (replaceNeg_evaluated M.dbl _ [] (C25_folded M.arith M.varErr t3 hn)).1

/-- **C79.** Errors are reported at a token that belongs to an operator or constant of the
expression. -/
theorem C79_error (M : Machine V ε) (hD : M.dbl.Sane) (f : ℚ → V) {t : Tree V} (ht : Verif.AllOps BuiltIn t)
    {e : SimpErr ε} {i : Nat} (h : M.simplify (shippedSimp f) t = .ok (.error (e, i))) : t.HasTok i :=
  (M.simplify_within hD (shipped_loaded f) (Shipped.fit f) (fun n _ h => h) (.inr rfl) (within_self ht)).2 _ h

/-- **C80.** Simplification with the shipped rules never accesses invalid memory and never stops the
program, whatever expression is entered: it ends with a result or an error, or does not end. -/
theorem C80_safe (M : Machine V ε) (hD : M.dbl.Sane) (f : ℚ → V) {t : Tree V} (ht : Verif.AllOps BuiltIn t) :
    M.simplify (shippedSimp f) t = .hang ∨ ∃ r, M.simplify (shippedSimp f) t = .ok r := by
  have hw := (M.simplify_within hD (shipped_loaded f) (Shipped.fit f) (fun n _ h => h) (.inr rfl) (within_self ht)).1
  cases h : M.simplify (shippedSimp f) t with
  | ok r => exact .inr ⟨r, rfl⟩
  | hang => exact .inl rfl
  | defect => rw [h] at hw; exact hw.elim
  | ub => rw [h] at hw; exact hw.elim

/-- **C80.** The conditions of the shipped rules can always be evaluated: each rule is made from conditions for which
the checker ends normally whatever expressions are put in for the variables. -/
theorem C80_conditions (D : Doubles V) (arith : Op → List V → Except ε V) (ve : ε) (f : ℚ → V) (k : Nat)
    {r : RewriteRule V} (hr : r ∈ (shippedSimp f).rulesets k) :
    ∃ before cs after, Accepted before cs after r ∧
      ∀ c ∈ cs, ∀ σ g ts, (∀ n l, ¬ ListName n → σ n = some l → ∃ x, l = [x] ∧ Verif.AllOps BuiltIn x) →
        Inst σ g c ts → ∃ c' b, ts = [c'] ∧ propChecker D arith ve c' = .ok b := by
  obtain ⟨p, hp, rfl⟩ := List.mem_map.1 hr
  refine ⟨_, _, _, Shipped.rule_accepted (Shipped.parts_fit k p hp) f, ?_⟩
  intro c hc σ g ts hσ hi
  obtain ⟨d, hd, rfl⟩ := List.mem_map.1 hc
  obtain ⟨u, rfl, hu⟩ := cond_inst hσ ((condB_mapVal f d).trans (Shipped.conds_ok k p hp d hd)) hi
  obtain ⟨b, hb⟩ := isCond_checker D arith ve hu
  exact ⟨u, b, rfl, hb⟩

/-! ## The whole client -/

/-- The rules are loaded or not, and the rest of the world. -/
structure World (σ : Type) where
  loaded : Bool
  rest : σ

/-- No rules are loaded. -/
def noRules : Simp V := ⟨false, fun _ => [], none, none, none⟩

/-- `arith_simplify` with `simplify` as it is (src/client/simplification/simplification.c:200-218), with no rules or the shipped
ones.  `arith` gets the history and the rest of the world; `next` is what happens to the world until the next input. -/
def client {σ : Type} (strtod : Str → Option V) (D : Doubles V) (arith : σ → List V → Op → List V → Except ε V) (ve : ε)
    (next : World σ → World σ) (f : ℚ → V) (fuel : Nat) : Client V (SimpErr ε × Nat) (World σ) where
  strtod := strtod
  eqV := D.eq
  simp w h t := do
    let r ← Machine.simplify ⟨D, arith w.rest h, ve, fuel⟩ (if w.loaded then shippedSimp f else noRules) t
    pure (next w, r)
  fuel := fuel

/-- **C79**, for sessions: simplification adds no user functions.  So what is said about sessions in C32 and
C37 holds for the calculator with the shipped rules. -/
theorem C79_keeps {σ : Type} {strtod : Str → Option V} {D : Doubles V} (hD : D.Sane)
    {arith : σ → List V → Op → List V → Except ε V} {ve : ε} {next : World σ → World σ} {f : ℚ → V} {fuel : Nat} :
    SimpKeeps (client strtod D arith ve next f fuel) := by
  intro w h t w' u ht hs
  obtain ⟨r, h1, h2⟩ := Out.bind_eq_ok.1 hs
  simp only [Out.pure_eq, Out.ok.injEq, Prod.mk.injEq] at h2
  obtain ⟨-, rfl⟩ := h2
  by_cases hl : w.loaded
  · rw [if_pos hl] at h1
    exact (C79_result _ hD f ht h1).1.mono fun o n h => h.1
  · rw [if_neg hl] at h1
    simp only [Machine.simplify, noRules, Bool.not_false, if_true] at h1
    exact (Machine.fold_within _ (within_of ht) h1).ops

/-- **C80**, for sessions: `simplify` never crashes, with no rules loaded or the shipped ones. -/
theorem C80_session {σ : Type} {strtod : Str → Option V} {D : Doubles V} (hD : D.Sane)
    {arith : σ → List V → Op → List V → Except ε V} {ve : ε} {next : World σ → World σ} {f : ℚ → V} {fuel : Nat} :
    SimpSafe (client strtod D arith ve next f fuel) := by
  intro w h t ht
  refine NoCrash.bind ?_ fun r _ => .inr ⟨_, rfl⟩
  split
  · exact C80_safe _ hD f ht
  · simp only [Machine.simplify, noRules, Bool.not_false, if_true]
    have := Machine.fold_fine ⟨D, arith w.rest h, ve, fuel⟩ t
    cases hr : Machine.fold ⟨D, arith w.rest h, ve, fuel⟩ t with
    | ok r => exact .inr ⟨r, rfl⟩
    | hang => exact .inl rfl
    | defect => rw [hr] at this; exact this.elim
    | ub => rw [hr] at this; exact this.elim

/-- **C80** (partial: no delimiters in parentheses that are not those of functions, histories as in `TidyDef`): entering an expression, with no rules loaded or the shipped ones, never accesses invalid memory. -/
theorem C80_evaluation_partial {σ : Type} {strtod : Str → Option V} {D : Doubles V} (hD : D.Sane)
    {arith : σ → List V → Op → List V → Except ε V} {ve : ε} {next : World σ → World σ} {f : ℚ → V} {fuel : Nat}
    (hf : fuel < sizeMax) (C : Str → Prop) (s : Session V (World σ))
    (hs : Reach (client strtod D arith ve next f fuel) TidyDef C s) (input : Str) (hd : DelimsOk input) :
    evaluationExec (client strtod D arith ve next f fuel) s input = .hang ∨
    ∃ s' r, evaluationExec (client strtod D arith ve next f fuel) s input = .ok (s', r) :=
  C34_evaluation_partial _ (C79_keeps hD) (C80_session hD) hf C s hs input hd

/-- **C34**, for the calculator with the shipped rules loaded or not (partial as above): a definition crashes only if the
simplification of its right side reports an error. -/
theorem C34_shipped_partial {σ : Type} {strtod : Str → Option V} {D : Doubles V} (hD : D.Sane)
    {arith : σ → List V → Op → List V → Except ε V} {ve : ε} {next : World σ → World σ} {f : ℚ → V} {fuel : Nat}
    (hf : fuel < sizeMax) (C : Str → Prop) (s : Session V (World σ))
    (hs : Reach (client strtod D arith ve next f fuel) TidyDef C s) (left right : Str) (hl : DelimsOk left)
    (hr : DelimsOk right) (he : '=' ∉ left) :
    definitionExec (client strtod D arith ve next f fuel) s (left ++ '=' :: right) = .hang ∨
    (∃ s' r, definitionExec (client strtod D arith ve next f fuel) s (left ++ '=' :: right) = .ok (s', r)) ∨
    (definitionExec (client strtod D arith ve next f fuel) s (left ++ '=' :: right) = .ub ∧
      RightFails (client strtod D arith ve next f fuel) s right) :=
  C34_no_crash_partial _ (C79_keeps hD) (C80_session hD) hf C s hs left right hl hr he

/-- **C32**, for the calculator with the shipped rules loaded or not (partial: histories as in `TidyDef`). -/
theorem C32_shipped_partial {σ : Type} {strtod : Str → Option V} {D : Doubles V} (hD : D.Sane)
    {arith : σ → List V → Op → List V → Except ε V} {ve : ε} {next : World σ → World σ} {f : ℚ → V} {fuel : Nat}
    (hf : fuel < sizeMax) (C : Str → Prop) (s : Session V (World σ))
    (hs : Reach (client strtod D arith ve next f fuel) TidyDef C s) (F : List (FunDef V)) (hF : Sess s F) (input : Str)
    (t : Tree V) (hp : parseEasy s.ctx strtod input = .ok (some t)) :
    ∃ n, ∀ cap fuel, n < cap → n < fuel → ∃ u k,
      applyRuleset D.eq (fun _ => true) s.funs cap fuel t = .ok (some (u, k)) ∧
      Expanded F t u ∧ Verif.AllOps (fun o _ => ∀ d ∈ F, d.op.id ≠ o.id) u :=
  C32_expansion_partial _ (C79_keeps hD) hf C s hs F hF input t hp

end Verif.SimplifyProps
