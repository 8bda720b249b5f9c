import Verif.Props.Console
import Verif.Props.Simplify
import Verif.Props.SimplifyRuns

/-!
# C83: errors of the evaluation are marked at the operator or number that was typed
-/

namespace Verif.ConsoleProps
open Verif.ParserProps Verif.SimplifyProps Verif.SessionProps
variable {V E ε ρ : Type}

/-- Each node of the tree belongs to one of the tokens, and the token says what the node is.  A product that was
left out (`2x`) belongs to the token before which it was left out. -/
inductive FromTokens (env : Env) (strtod : Str → Option V) (tokens : List Str) : Tree V → Prop where
  | const {v i tok} : tokens[i]? = some tok → strtod tok = some v → FromTokens env strtod tokens (.const v i)
  | var {x i tok} : tokens[i]? = some tok → headIs isLetter tok = true → FromTokens env strtod tokens (.var tok x i)
  | op {o cs i tok} : tokens[i]? = some tok → ((∃ pl, env.lookup tok pl = some o) ∨ env.glue = some o) →
      (∀ c ∈ cs, FromTokens env strtod tokens c) → FromTokens env strtod tokens (.op o cs i)

theorem number_get {α : Type} (l : List α) (k i : Nat) (x : α) (h : (i, x) ∈ number k l) : k ≤ i ∧ l[i - k]? = some x := by
  induction l generalizing k with
  | nil => simp [number] at h
  | cons a l ih =>
    simp only [number, List.mem_cons, Prod.mk.injEq] at h
    rcases h with ⟨rfl, rfl⟩ | h
    · simp
    · obtain ⟨h1, h2⟩ := ih (k + 1) h
      refine ⟨by omega, ?_⟩
      rw [show i - k = (i - (k + 1)) + 1 by omega, List.getElem?_cons_succ]
      exact h2

/-- **C83**, the parser: nodes remember the token they come from. -/
theorem C83_nodes (env : Env) (strtod : Str → Option V) (tokens : List Str) (t : Tree V)
    (h : parseTokens env strtod tokens = .ok t) : FromTokens env strtod tokens t := by
  have hm : ∀ {i tok}, (i, tok) ∈ number 0 tokens → tokens[i]? = some tok := by
    intro i tok h
    simpa using (number_get _ _ _ _ h).2
  refine parseIdx_good (Q := FromTokens env strtod tokens) (D := fun d => ∀ o, d.op = some o →
    ∃ tok, tokens[d.token]? = some tok ∧ ((∃ pl, env.lookup tok pl = some o) ∨ env.glue = some o)) ?_ h
  refine ⟨?_, ?_, ?_, ?_, ?_, ?_, ?_⟩
  · intro i tok v hi hv; exact .const (hm hi) hv
  · intro i tok hi _ hl _ _ _ _; exact .var (hm hi) hl
  · intro i tok a _ o ho; cases ho
  · intro i tok pl o a hi hl o' ho'
    cases ho'
    exact ⟨tok, hm hi, .inl ⟨pl, hl⟩⟩
  · intro i tok o a hi hl o' ho'
    cases ho'
    exact ⟨tok, hm hi, .inr hl⟩
  · intro d a hd; exact hd
  · intro o d cs hd ho _ _ hc
    obtain ⟨tok, h1, h2⟩ := hd o ho
    exact .op h1 h2 hc

theorem FromTokens.within {env : Env} {strtod : Str → Option V} {tokens : List Str} {t : Tree V}
    (h : FromTokens env strtod tokens t) :
    Within (fun _ _ => True) (fun _ _ => True) (fun i => ∃ tok, tokens[i]? = some tok) t := by
  induction h with
  | const h1 _ => exact .const ⟨_, h1⟩
  | var => exact .var trivial
  | op h1 _ _ ih => exact .op trivial ⟨_, h1⟩ ih

theorem within_hasTok_self (t : Tree V) : Within (fun _ _ => True) (fun _ _ => True) t.HasTok t := by
  have key : ∀ (s : Tree V) p, t.deref p = some s → Within (fun _ _ => True) (fun _ _ => True) t.HasTok s := by
    intro s
    induction s using Tree.induct with
    | hc v i => intro p hp; exact .const ⟨p, _, deref_iff.2 hp, rfl, by simp⟩
    | hv n x i => intro p hp; exact .var trivial
    | ho o cs i ih =>
      intro p hp
      refine .op trivial ⟨p, _, deref_iff.2 hp, rfl, by simp⟩ fun c hc => ?_
      obtain ⟨k, hk⟩ := List.getElem?_of_mem hc
      exact ih c hc (p ++ [k]) (deref_snoc hp hk)
  exact key t [] (by cases t <;> rfl)

theorem built_true (t : Tree V) : Built (fun _ _ => True) t := by
  induction t using Tree.induct with
  | ho o cs i ih => exact .op (.inl fun _ => trivial) ih
  | hc => exact .const
  | hv => exact .var

theorem IsDef.good {r : RewriteRule V} {d : FunDef V} (h : IsDef r d) : GoodRule (fun _ _ => True) r := by
  obtain ⟨cs, tok, -, h⟩ := h.accepted
  exact ⟨_, _, _, h, built_true _, by simp⟩

theorem applyLoop_within {O : Op → Nat → Prop} {N : Str → Nat → Prop} {T : Nat → Prop} {rules : List (RewriteRule V)}
    (hr : ∀ r ∈ rules, GoodRule O r) {eqV : V → V → Bool} {checker : Tree V → Bool} {cap : Nat} :
    ∀ (fuel counter : Nat) (t u : Tree V) (n : Nat), Within O N T t →
      applyLoop eqV checker rules cap fuel counter t = .ok (some (u, n)) → Within O N T u := by
  intro fuel
  induction fuel with
  | zero => intro _ _ _ _ _ h; cases h
  | succ fuel ih =>
    intro counter t u n ht h
    unfold applyLoop at h
    obtain ⟨x, hx, h⟩ := Res.bind_eq_ok.1 h
    cases x with
    | none => cases h; exact ht
    | some t' =>
      have := GoodRule.first hr hx ht
      dsimp only at h
      split at h
      · cases h; exact this
      · exact ih _ _ _ _ this h

theorem within_hasTok {O : Op → Nat → Prop} {N : Str → Nat → Prop} {T : Nat → Prop} {t : Tree V} (h : Within O N T t)
    {i : Nat} (hi : t.HasTok i) : T i := by
  obtain ⟨p, s, h1, rfl, h3⟩ := hi
  exact (h.deref (deref_iff.1 h1)).tok h3

/-- An error of `simplify` comes with the token of an operator or a constant. -/
def ErrTok (K : Client V (E × Nat) ρ) : Prop :=
  ∀ w h t w' e i, Verif.AllOps BuiltIn t → K.simp w h t = .ok (w', .error (e, i)) → t.HasTok i

theorem client_errTok {σ : Type} {strtod : Str → Option V} {D : Doubles V} (hD : D.Sane)
    {arith : σ → List V → Op → List V → Except ε V} {ve : ε} {next : World σ → World σ} {f : ℚ → V} {fuel : Nat} :
    ErrTok (client strtod D arith ve next f fuel) := by
  intro w h t w' e i ht hs
  obtain ⟨r, h1, h2⟩ := Out.bind_eq_ok.1 hs
  simp only [Out.pure_eq, Out.ok.injEq, Prod.mk.injEq] at h2
  obtain ⟨-, rfl⟩ := h2
  by_cases hl : w.loaded
  · rw [if_pos hl] at h1
    exact C79_error _ hD f ht h1
  · rw [if_neg hl] at h1
    simp only [Machine.simplify, noRules, Bool.not_false, if_true] at h1
    exact (Machine.fold_within _ (within_self ht) h1).2

/-- The reports of all errors of the evaluation, for any `simplify` that reports errors at operators and constants. -/
theorem report_marks (K : Client V (E × Nat) ρ) (hE : ErrTok K) (hK : SimpKeeps K) (hf : K.fuel < sizeMax)
    (message : E → Str) (hmsg : ∀ e, PlainMsg ("Error: ".toList ++ message e)) (C : Str → Prop)
    (s : Session V ρ) (hs : Reach K TidyDef C s) (A inp B : Str) (t : Tree V)
    (hp : (parseInput s.ctx K.strtod inp).2 = .ok t) (w' : ρ)
    (herr : arithSimplify K s.funs s.hist s.world t = .ok (w', none)) :
    ∃ before tok after out e, A ++ inp ++ B = (A ++ before) ++ tok ++ after ∧
      arithReport true K message s inp A.length = .ok out ∧
      Underlines out (A ++ before).length tok.length ("Error: ".toList ++ message e) ∧
      before.length + tok.length ≤ inp.length ∧
      ∃ k, t.HasTok k ∧ (tokenize s.ctx.keywords inp)[k]? = some tok ∧ tok ≠ [] ∧
        before = ((tokenize s.ctx.keywords inp).take k).flatten := by
  have htidy := hs.tidy hK hf
  obtain ⟨D, hD⟩ := hs.sess
  have hpe : parseEasy s.ctx K.strtod inp = .ok (some t) := by unfold parseEasy; rw [hp]
  have hpt := parseEasy_ok.1 hpe
  have hk := parse_known hD.ctx hD.arity hpe
  unfold arithSimplify at herr
  obtain ⟨⟨t', n⟩, h1, herr⟩ := Out.bind_eq_ok.1 herr
  obtain ⟨⟨w2, r⟩, h2, herr⟩ := Out.bind_eq_ok.1 herr
  have h1' : applyRuleset K.eqV (fun _ => true) s.funs sizeMax K.fuel t = .ok (some (t', n)) := by
    revert h1
    cases applyRuleset K.eqV (fun _ => true) s.funs sizeMax K.fuel t with
    | ok x => cases x <;> simp [Out.ofFuel]
    | defect => simp [Out.ofFuel]
    | ub => simp [Out.ofFuel]
  obtain ⟨-, h3⟩ := expand_ok (hD.table htidy) hD.rules _ _ sizeMax K.fuel 0 t t' n hk (by omega) h1'
  have hgood : ∀ r ∈ s.funs, GoodRule (fun _ _ => True) r := by
    intro r hr
    obtain ⟨d, -, hd⟩ := forall2_left hD.rules hr
    exact IsDef.good hd
  cases r with
  | ok u => simp at herr
  | error x =>
    obtain ⟨e, k⟩ := x
    have hkt : t.HasTok k :=
      within_hasTok (applyLoop_within hgood _ _ _ _ _ (within_hasTok_self t) h1') (hE _ _ _ _ _ _ h3 h2)
    obtain ⟨tok, htok⟩ := within_hasTok (C83_nodes _ _ _ _ hpt).within hkt
    have hloss := C07_calculator s.ctx hD.ctx.like inp
    have hne := hloss.2 tok (List.mem_of_getElem? htok)
    have hlt : k < (tokenize s.ctx.keywords inp).length := (List.getElem?_eq_some_iff.1 htok).1
    have hsplit : inp = ((tokenize s.ctx.keywords inp).take k).flatten ++ (tok ++
        ((tokenize s.ctx.keywords inp).drop (k + 1)).flatten) := by
      have e1 : tokenize s.ctx.keywords inp = (tokenize s.ctx.keywords inp).take k ++ (tok ::
        (tokenize s.ctx.keywords inp).drop (k + 1)) := by
        have : (tokenize s.ctx.keywords inp)[k] = tok := (List.getElem?_eq_some_iff.1 htok).2
        rw [← this, ← List.drop_eq_getElem_cons hlt, List.take_append_drop]
      have := congrArg List.flatten e1
      rw [hloss.1] at this
      simpa using this
    have hlen := congrArg List.length hsplit
    simp only [List.length_append] at hlen
    refine ⟨_, tok, ((tokenize s.ctx.keywords inp).drop (k + 1)).flatten ++ B,
      reportErrorAt true (A.length + ((tokenize s.ctx.keywords inp).take k).flatten.length) tok.length
        ("Error: ".toList ++ message e), e, ?_, ?_, ?_, by omega, k, hkt, htok, hne, rfl⟩
    · conv_lhs => rw [hsplit]
      simp
    · unfold arithReport
      have : parseInput s.ctx K.strtod inp = (tokenize s.ctx.keywords inp, .ok t) := by
        rw [← hp]; rfl
      rw [this]
      simp only [simplifyReport]
      rw [h1', ]
      simp only [Out.ofFuel, Out.bind_ok]
      rw [h2]
      simp only [Out.bind_ok, showErrorAtToken, errorPos_eq _ _ _ (Nat.le_of_lt hlt), Res.bind_ok, Res.pure_eq,
        Out.of_ok, errorLength, htok]
    · have := C82_layout_partial (A.length + ((tokenize s.ctx.keywords inp).take k).flatten.length) tok.length _ (hmsg e)
      have h1 : max tok.length 1 = tok.length := by
        have := List.length_pos_iff.2 hne
        omega
      rw [h1] at this
      simpa using this

theorem simpMessage_plain (e : SimpErr EvalErr) : PlainMsg ("Error: ".toList ++ simpMessage e) := by
  rcases e with (e | _ | _) | _ | _ | _
  · cases e <;> decide +kernel
  all_goals decide +kernel

/-- **C83** (partial: histories as in `TidyDef`).  The user types `A ++ inp ++ B`; the part `inp` can be read as the
expression `t`, but its evaluation fails, with no rules loaded or the shipped ones.  Then the report marks exactly the columns
of a token of `inp` which belongs to an operator, a function or a constant of `t`; also if the error is found in the body
of a user function or in an expression that rules have made. -/
theorem C83_evaluation_partial {σ : Type} {strtod : Str → Option V} {D : Doubles V} (hD : D.Sane)
    {arith : σ → List V → Op → List V → Except EvalErr V} {ve : EvalErr} {next : World σ → World σ} {f : ℚ → V} {fuel : Nat}
    (hf : fuel < sizeMax) (C : Str → Prop) (s : Session V (World σ))
    (hs : Reach (client strtod D arith ve next f fuel) TidyDef C s) (A inp B : Str) (t : Tree V)
    (hp : (parseInput s.ctx strtod inp).2 = .ok t) (w' : World σ)
    (herr : arithSimplify (client strtod D arith ve next f fuel) s.funs s.hist s.world t = .ok (w', none)) :
    ∃ before tok after out e, A ++ inp ++ B = (A ++ before) ++ tok ++ after ∧
      arithReport true (client strtod D arith ve next f fuel) simpMessage s inp A.length = .ok out ∧
      Underlines out (A ++ before).length tok.length ("Error: ".toList ++ simpMessage e) ∧
      before.length + tok.length ≤ inp.length ∧
      ∃ k, t.HasTok k ∧ (tokenize s.ctx.keywords inp)[k]? = some tok ∧ tok ≠ [] ∧
        before = ((tokenize s.ctx.keywords inp).take k).flatten :=
  report_marks _ (client_errTok hD) (C79_keeps hD) hf simpMessage simpMessage_plain C s hs A inp B t hp w' herr

/-! ## Cases -/

/-- What is reported for an input in a session with one definition. -/
def reportAfter (loaded : Bool) (definition text : String) : Out Str := do
  let (s, _) ← define loaded 200 definition
  arithReport true (qK 200) simpMessage s text.toList 0

/-- The error is in the body of `f`; what is marked is the call. -/
example : reportAfter false "f(x)=1/x" "12 + f(3-3)" = .ok "     ^ Error: Division by zero\n".toList := by kernel_rfl
example : reportAfter true "inv(x)=1/x" "12 + inv(3-3)" = .ok "     ^~~ Error: Division by zero\n".toList := by kernel_rfl
example : reportAfter true "f(x)=1/x" "2 + (x*y)'" = .ok "         ^ Error: More than one variable in expr'\n".toList := by kernel_rfl

/-- The hypotheses of `C83_evaluation_partial` are met in the session after `f(a)=a^2` by the input `1/f(0)`. -/
example : ∃ s t w, withF = .ok s ∧ Reach (qK 200) TidyDef (fun _ => True) s ∧
    (parseInput s.ctx (qK 200).strtod "1/f(0)".toList).2 = .ok t ∧
    arithSimplify (qK 200) s.funs s.hist s.world t = .ok (w, none) := by
  obtain ⟨s, hs⟩ := withF_ok
  have key : (match withF with
    | .ok s => (match (parseInput s.ctx (qK 200).strtod "1/f(0)".toList).2 with
      | .ok t => (match arithSimplify (qK 200) s.funs s.hist s.world t with
        | .ok (_, none) => true
        | _ => false)
      | _ => false)
    | _ => false) = true := by kernel_rfl
  rw [hs] at key
  dsimp only at key
  split at key
  · rename_i t ht
    split at key
    · rename_i w hw
      exact ⟨s, t, w, hs, withF_reach hs, ht, hw⟩
    · cases key
  · cases key

end Verif.ConsoleProps
