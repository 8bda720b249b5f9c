import Verif.Lemmas.ShippedTrees
import Verif.Lemmas.Shorthand
import Verif.Lemmas.SessionCtx

/-!
# What `init_simplification` leaves behind
-/

namespace Verif
variable {V ε : Type}

/-! ## The parser looks up nothing but tokens -/

section
variable {E E' : Env} {f f' : Str → Option V} (hg : E.glue = E'.glue)
include hg

theorem stepTok_congr {tok : Str} (hl : ∀ pl, E.lookup tok pl = E'.lookup tok pl) (hf : f tok = f' tok) (i : Nat)
    (st : PState V) : stepTok E f i tok st = stepTok E' f' i tok st := by
  unfold stepTok stepGlue stepRest stepOperator stepOperand stepLeaf
  simp only [hg, hl, hf]

theorem runToks_congr (toks : List (Nat × Str)) (hl : ∀ x ∈ toks, ∀ pl, E.lookup x.2 pl = E'.lookup x.2 pl)
    (hf : ∀ x ∈ toks, f x.2 = f' x.2) (st : PState V) : runToks E f toks st = runToks E' f' toks st := by
  induction toks generalizing st with
  | nil => rfl
  | cons x toks ih =>
    obtain ⟨i, tok⟩ := x
    simp only [runToks]
    have e : stepTok E f i tok st = stepTok E' f' i tok st :=
      stepTok_congr hg (hl (i, tok) (by simp)) (hf (i, tok) (by simp)) i st
    rw [e]
    cases stepTok E' f' i tok st with
    | error => rfl
    | ok st' => exact ih (fun x hx => hl x (by simp [hx])) (fun x hx => hf x (by simp [hx])) _

theorem parseTokens_congr (toks : List Str) (hl : ∀ tok ∈ toks, ∀ pl, E.lookup tok pl = E'.lookup tok pl)
    (hf : ∀ tok ∈ toks, f tok = f' tok) : parseTokens E f toks = parseTokens E' f' toks := by
  have hm : ∀ (k : Nat) (l : List Str), ∀ x ∈ number k l, x.2 ∈ l := by
    intro k l
    induction l generalizing k with
    | nil => intro x hx; cases hx
    | cons a l ih =>
      intro x hx
      simp only [number, List.mem_cons] at hx ⊢
      rcases hx with rfl | hx
      · exact .inl rfl
      · exact .inr (ih _ x hx)
  unfold parseTokens parseIdx
  rw [runToks_congr hg _ (fun x hx => hl _ (hm _ _ x hx)) (fun x hx => hf _ (hm _ _ x hx))]
end

/-- Functions of the user with other names do not matter. -/
theorem arithEnv_lookup {us : List Op} {n : Str} (hn : ∀ u ∈ us, u.name ≠ n) (pl : Placement) :
    (arithEnv us).lookup n pl = (arithEnv []).lookup n pl := by
  simp only [arithEnv, List.append_nil, List.find?_append]
  have : us.find? (fun o => o.name == n && o.placement == pl) = none := by
    rw [List.find?_eq_none]
    intro u hu
    simp [hn u hu]
  rw [this, Option.or_none]

/-- `x'` and `deriv(x, z)` as `init_simplification` reads them. -/
def primeTree : Tree V := .op Shipped.o2 [.var ['x'] 0 0] 1
def derivTree : Tree V := .op Shipped.o3 [.var ['x'] 0 2, .var ['z'] 0 5] 0

/-- The tokens of these texts. -/
def helperToks : List Str := [['x'], ['\''], ['d', 'e', 'r', 'i', 'v'], ['('], [','], [' '], ['z'], [')']]

theorem fresh_holds {c : Ctx} (hc : arithCtx = .ok c) : Holds c [] := by
  obtain ⟨c', hc', hl⟩ := arithCtx_ok
  rw [hc] at hc'
  cases hc'
  have := arithCtx_builtin hc
  exact ⟨hl, ⟨[], rfl, by simpa using this⟩, by simp⟩

theorem helper_toks {c : Ctx} (hc : arithCtx = .ok c) :
    tokenize c.keywords "x'".toList = [['x'], ['\'']] ∧
    tokenize c.keywords "deriv(x, z)".toList
      = [['d', 'e', 'r', 'i', 'v'], ['('], ['x'], [','], [' '], ['z'], [')']] := by
  have key : (match arithCtx with
    | .ok c => decide (tokenize c.keywords "x'".toList = [['x'], ['\'']] ∧
        tokenize c.keywords "deriv(x, z)".toList
          = [['d', 'e', 'r', 'i', 'v'], ['('], ['x'], [','], [' '], ['z'], [')']])
    | _ => false) = true := by decide +kernel
  rw [hc] at key
  exact of_decide_eq_true key

/-- Reading these texts does not depend on functions of the user with other names than `x` and `z`. -/
theorem parse_helper {c : Ctx} {us : List Op} (h : Holds c us) (hu : ∀ u ∈ us, u.name ≠ ['x'] ∧ u.name ≠ ['z'])
    {strtod : Str → Option V} (hs : ∀ tok ∈ helperToks, strtod tok = none) :
    parseEasy c strtod "x'".toList = .ok (some primeTree) ∧
    parseEasy c strtod "deriv(x, z)".toList = .ok (some derivTree) := by
  obtain ⟨c0, h0, -⟩ := arithCtx_ok
  have hlike := fresh_holds h0
  obtain ⟨t1, t2⟩ := helper_toks h0
  have hne : ∀ tok ∈ helperToks, ∀ u ∈ us, u.name ≠ tok := by
    intro tok ht u hu' e
    have hw := (h.user u hu').name
    have hb := h.notBuiltin hu'
    rw [e] at hw hb
    have : tok = ['x'] ∨ tok = ['z'] ∨ isWord tok = false ∨ (Ctx.findOp builtin tok .function).isSome = true := by
      have : ∀ tok ∈ helperToks, tok = ['x'] ∨ tok = ['z'] ∨ isWord tok = false ∨
          (Ctx.findOp builtin tok .function).isSome = true := by decide +kernel
      exact this tok ht
    rcases this with e' | e' | e' | e'
    · exact (hu u hu').1 (e.trans e')
    · exact (hu u hu').2 (e.trans e')
    · rw [hw] at e'; cases e'
    · rw [hb] at e'; cases e'
  have hc : ∀ toks : List Str, (∀ tok ∈ toks, tok ∈ helperToks) → parseTokens (arithEnv us) strtod toks
      = parseTokens (arithEnv []) (fun _ => none) toks := by
    intro toks ht
    refine parseTokens_congr (by rfl) _ ?_ ?_
    · exact fun tok ht' pl => arithEnv_lookup (hne tok (ht tok ht')) pl
    · exact fun tok ht' => hs tok (ht tok ht')
  unfold parseEasy parseInput
  rw [h.like.tokenize hlike.like, h.like.tokenize hlike.like, h.env, t1, t2]
  dsimp only
  rw [hc _ (by decide), hc _ (by decide)]
  constructor <;> kernel_rfl

/-- What is found in a tree by the pattern of wrong derivatives. -/
def malformedPattern : Pattern V :=
  ⟨.op Shipped.o3 [.var ['x'] 0 2, .var ['y'] 1 5] 0,
    fun k => if k = 1 then [.op Shipped.o61 [.op Shipped.o58 [.var ['y'] 1 2] 0, .op Shipped.o63 [] 7] 5] else []⟩

theorem parse_malformed (f : ℚ → V) :
    parsePattern (ruleParser f) "deriv(x, y) WHERE type(y) != VAR".toList = .ok (some malformedPattern) := by
  kernel_rfl

/-- The rules are loaded, and the helpers are as they should be. -/
structure Loaded (s : Simp V) : Prop where
  init : s.initialized = true
  before : s.derivBefore = some ⟨primeTree, fun _ => []⟩
  after : s.derivAfter = some derivTree
  malformed : s.malformedDeriv = some malformedPattern

theorem getPattern_prime : getPattern (V := V) primeTree [] = .ok ⟨primeTree, fun _ => []⟩ := by kernel_rfl

theorem init_loaded {c : Ctx} {us : List Op} (h : Holds c us) (hu : ∀ u ∈ us, u.name ≠ ['x'] ∧ u.name ≠ ['z'])
    {strtod : Str → Option V} (hs : ∀ tok ∈ helperToks, strtod tok = none) (f : ℚ → V) {text : Str} {s0 s : Simp V}
    {n : Int} (hn : 0 ≤ n) (hi : initSimplification (parseEasy c strtod) (ruleParser f) (some text) s0 = .ok (n, s)) :
    Loaded s ∧ parseRulesets (ruleParser f) numRulesets text = .ok (numRulesets, s.rulesets) := by
  obtain ⟨h1, h2⟩ := parse_helper h hu hs
  unfold initSimplification at hi
  dsimp only at hi
  obtain ⟨⟨k, rs⟩, hk, hi⟩ := Res.bind_eq_ok.1 hi
  dsimp only at hi
  split at hi
  · cases hi; omega
  · rename_i hk'
    simp only [ne_eq, Decidable.not_not] at hk'
    subst hk'
    simp only [h1, h2, parse_malformed, Res.bind_ok, Res.pure_eq, Res.ok.injEq, Prod.mk.injEq] at hi
    obtain ⟨-, rfl⟩ := hi
    refine ⟨⟨rfl, ?_, rfl, rfl⟩, hk⟩
    simp only [Option.bind_some, getPattern_prime]
    rfl

/-- The shipped rules are loaded. -/
def shippedSimp (f : ℚ → V) : Simp V :=
  ⟨true, Shipped.rulesAt f, some ⟨primeTree, fun _ => []⟩, some derivTree, some malformedPattern⟩

theorem init_shipped {c : Ctx} {us : List Op} (h : Holds c us) (hu : ∀ u ∈ us, u.name ≠ ['x'] ∧ u.name ≠ ['z'])
    {strtod : Str → Option V} (hs : ∀ tok ∈ helperToks, strtod tok = none) (f : ℚ → V) (s0 : Simp V) :
    initSimplification (parseEasy c strtod) (ruleParser f) (some shippedText) s0 = .ok (135, shippedSimp f) := by
  obtain ⟨h1, h2⟩ := parse_helper h hu hs
  unfold initSimplification
  dsimp only
  rw [Shipped.rulesAt_shipped]
  simp only [h1, h2, parse_malformed, Res.bind_ok, Res.pure_eq]
  rw [if_neg (by decide)]
  simp only [Option.bind_some, getPattern_prime]
  have e : ((List.range numRulesets).map fun k => (Shipped.rulesAt f k).length)
      = (List.range numRulesets).map fun k => (Shipped.partsOf k).length := by
    simp [Shipped.rulesAt]
  rw [e]
  rfl

end Verif
