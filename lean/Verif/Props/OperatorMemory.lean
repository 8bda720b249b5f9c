import Verif.Lemmas.OperatorLists
import Verif.Props.SimplifyRuns

/-!
# C107: no tree that stays points to an operator that has been freed

In full: in every state of the program, all operators that the rules of the user's functions and the helper patterns
of the simplification point to are operators of the context.  This holds for the functions (`C107_functions`).
For the helpers it holds when they are made (`C107_helpers`), and later unless a function `x` or `z`
existed then (`C107_helpers_partial`).  With such a function it is violated (`C107_dangling`).

Beside it, the number of operands of the operators on right sides: `C107_operands_partial`, `C107_operands_missing`.
-/

namespace Verif.OperatorMemoryProps
open Verif OperatorSpec SessionProps SimplifyProps
variable {V ε ρ : Type}

theorem bodies {K : Client V ε ρ} (hK : SimpStays K) (hf : K.fuel < sizeMax) {s : Session V ρ}
    (h : Reachable K s) : ∃ D, Sess s D ∧ ∀ d ∈ D, Verif.AllOps AnyBuilt d.body := by
  induction h with
  | start h => exact ⟨[], initSession_sess h, fun d hd => by cases hd⟩
  | define _ _ _ h3 ih =>
    obtain ⟨D, hD, hS⟩ := ih
    rcases definitionExec_spec hD h3 with ⟨-, h⟩ | ⟨-, d, -, h, hd, -⟩
    · exact ⟨D, h.sess hD, hS⟩
    · exact ⟨_, h, define_any hK hf hD hS h hd⟩
  | @clear s s' input r _ _ _ h3 ih =>
    obtain ⟨D, hD, hS⟩ := ih
    by_cases hi : input = clearCommand
    · subst hi
      obtain ⟨c, h1, h2⟩ := clearExec_all hD
      rw [h1] at h3
      simp only [Res.ok.injEq, Prod.mk.injEq] at h3
      obtain ⟨rfl, -⟩ := h3
      exact ⟨[], ⟨h2, .nil, by simp, by simp⟩, fun d hd => by cases hd⟩
    · rcases clearExec_one hD hi with ⟨h1, -⟩ | ⟨s2, d, h1, -, -, -, -, h2⟩
      · rw [h1] at h3
        simp only [Res.ok.injEq, Prod.mk.injEq] at h3
        obtain ⟨rfl, -⟩ := h3
        exact ⟨D, hD, hS⟩
      · rw [h1] at h3
        simp only [Res.ok.injEq, Prod.mk.injEq] at h3
        obtain ⟨rfl, -⟩ := h3
        exact ⟨_, h2, fun d hd => hS d (List.mem_filter.1 hd).1⟩
  | evaluate _ h1 ih =>
    obtain ⟨D, hD, hS⟩ := ih
    obtain ⟨h2, h3, -⟩ := evaluationExec_spec h1
    exact ⟨D, Sess.congr hD h2 h3, hS⟩
  | outside h w _ ih =>
    obtain ⟨D, hD, hS⟩ := ih
    exact ⟨D, Sess.congr hD rfl rfl, hS⟩

/-- In every state, also after single functions were cleared and numbers are shared: left side and right side of the
rule of every function point to operators of the context, the right side to built-in ones only. -/
theorem C107_functions {K : Client V ε ρ} (hK : SimpStays K) (hf : K.fuel < sizeMax) {s : Session V ρ}
    (h : Reachable K s) : ∀ r ∈ s.funs,
      Valid s.ctx r.pattern.tree ∧ Valid s.ctx r.after ∧ Verif.AllOps AnyBuilt r.after := by
  obtain ⟨D, hD, hS⟩ := bodies hK hf h
  intro r hr
  obtain ⟨d, hd, hrd⟩ := forall2_left hD.rules hr
  have hb := (hrd.bodyOps AnyBuilt).2 (hS d hd)
  refine ⟨?_, hb.mono fun o n ho => ho.alive hD.ctx, hb⟩
  obtain ⟨cs, tok, h1, h2⟩ := hrd.accepted
  obtain ⟨h3, -⟩ := h2.spec
  unfold Valid
  rw [(getPattern_spec h3).tree, AllOps.withIds]
  refine .op (hD.ctx.alive (List.mem_map_of_mem hd)) fun c hc => ?_
  obtain ⟨n, -, x, i, rfl⟩ := forall2_left h1 hc
  exact .var

/-- When functions are cleared, no rule that stays points to an operator that goes. -/
theorem C107_clear {K : Client V ε ρ} (hK : SimpStays K) (hf : K.fuel < sizeMax) {s s' : Session V ρ}
    (h : Reachable K s) {input : Str} (hi : clearCheck input = true) {b : Bool}
    (hc : clearExec s input = .ok (s', b)) {o : Op} (ho : ¬ Alive s'.ctx o) :
    ∀ r ∈ s'.funs, Avoids o r.pattern.tree ∧ Avoids o r.after := by
  intro r hr
  obtain ⟨h1, h2, -⟩ := C107_functions hK hf (Reach.clear h trivial hi hc) r hr
  have : ∀ (q : Op) (n : Nat), Alive s'.ctx q → q ≠ o := fun q _ hq e => ho (e ▸ hq)
  exact ⟨h1.mono this, h2.mono this⟩

/-- What an input is evaluated to has no user function in it: the tree that is printed and freed points to built-in
operators. -/
theorem C107_evaluated {K : Client V ε ρ} (hK : SimpStays K) (hf : K.fuel < sizeMax)
    {s s' : Session V ρ} (h : Reachable K s) {input : Str} {t : Tree V}
    (he : evaluationExec K s input = .ok (s', some t)) : Verif.AllOps AnyBuilt t ∧ Valid s'.ctx t := by
  obtain ⟨D, hD, hS⟩ := bodies hK hf h
  have hb : Verif.AllOps AnyBuilt t := by
    unfold evaluationExec arithParse at he
    obtain ⟨⟨s1, r⟩, h1, he⟩ := Out.bind_eq_ok.1 he
    obtain ⟨p, hp, h1⟩ := Out.bind_eq_ok.1 h1
    have hr : r = some t := by
      cases r with
      | none => simp at he
      | some u => cases u <;> simp at he <;> simp [he]
    subst hr
    cases p with
    | none => simp at h1
    | some t0 =>
      obtain ⟨⟨w, r⟩, h2, h1⟩ := Out.bind_eq_ok.1 h1
      simp only [Out.pure_eq, Out.ok.injEq, Prod.mk.injEq] at h1
      obtain ⟨-, rfl⟩ := h1
      exact arithSimplify_any hK hf hS hD.rules
        ((parse_known hD.ctx hD.arity (Out.of_eq_ok.1 hp)).mono fun o n h => h.any) h2
  obtain ⟨h2, -, -⟩ := evaluationExec_spec he
  exact ⟨hb, hb.mono fun o n ho => by rw [h2]; exact ho.alive hD.ctx⟩

/-- The program's own `simplify`, with the shipped rules or none, is as assumed. -/
theorem C107_simplify {σ : Type} {strtod : Str → Option V} {D : Doubles V}
    {arith : σ → List V → Op → List V → Except ε V} {ve : ε} {next : World σ → World σ} {f : ℚ → V} {fuel : Nat} :
    SimpStays (client strtod D arith ve next f fuel) := by
  intro w h t w' u ht hs
  obtain ⟨r, h1, h2⟩ := Out.bind_eq_ok.1 hs
  simp only [Out.pure_eq, Out.ok.injEq, Prod.mk.injEq] at h2
  obtain ⟨-, rfl⟩ := h2
  by_cases hl : w.loaded
  · rw [if_pos hl] at h1
    exact Machine.simplify_any _ (shipped_loaded f) (Shipped.fit f) ht h1
  · rw [if_neg hl] at h1
    simp only [Machine.simplify, noRules, Bool.not_false, if_true] at h1
    exact (Machine.fold_within _ (within_any ht) h1).ops

/-- Definitions without brackets. -/
def NoBrackets (_ : Session V ρ) (input : Str) : Prop := '[' ∉ input

theorem settled {K : Client V ε ρ} (hK : SimpKeeps K) (hf : K.fuel < sizeMax) {C : Str → Prop} {s : Session V ρ}
    (h : Reach K NoBrackets C s) : ∃ D, Sess s D ∧ Settled D := by
  induction h with
  | start h => exact ⟨[], initSession_sess h, fun d hd => by cases hd⟩
  | define _ h1 _ h3 ih =>
    obtain ⟨D, hD, hS⟩ := ih
    rcases definitionExec_spec hD h3 with ⟨-, h⟩ | ⟨-, d, -, h, hd, -⟩
    · exact ⟨D, h.sess hD, hS⟩
    · exact ⟨_, h, hS.define hK hf hD h1 h hd⟩
  | @clear s s' input r _ _ _ h3 ih =>
    obtain ⟨D, hD, hS⟩ := ih
    by_cases hi : input = clearCommand
    · subst hi
      obtain ⟨c, h1, h2⟩ := clearExec_all hD
      rw [h1] at h3
      simp only [Res.ok.injEq, Prod.mk.injEq] at h3
      obtain ⟨rfl, -⟩ := h3
      exact ⟨[], ⟨h2, .nil, by simp, by simp⟩, fun d hd => by cases hd⟩
    · rcases clearExec_one hD hi with ⟨h1, -⟩ | ⟨s2, d, h1, -, -, -, -, h2⟩
      · rw [h1] at h3
        simp only [Res.ok.injEq, Prod.mk.injEq] at h3
        obtain ⟨rfl, -⟩ := h3
        exact ⟨D, hD, hS⟩
      · rw [h1] at h3
        simp only [Res.ok.injEq, Prod.mk.injEq] at h3
        obtain ⟨rfl, -⟩ := h3
        exact ⟨_, h2, fun d hd => hS d (List.mem_filter.1 hd).1⟩
  | evaluate _ h1 ih =>
    obtain ⟨D, hD, hS⟩ := ih
    obtain ⟨h2, h3, -⟩ := evaluationExec_spec h1
    exact ⟨D, Sess.congr hD h2 h3, hS⟩
  | outside h w _ ih =>
    obtain ⟨D, hD, hS⟩ := ih
    exact ⟨D, Sess.congr hD rfl rfl, hS⟩

/-- In full: every operator on a right side has a number of operands it can have.  Without brackets in definitions this
holds, whatever numbers the operators have; with brackets it is violated (`C107_operands_missing`). -/
theorem C107_operands_partial {K : Client V ε ρ} (hK : SimpKeeps K) (hf : K.fuel < sizeMax) {C : Str → Prop}
    {s : Session V ρ} (h : Reach K NoBrackets C s) : ∀ r ∈ s.funs,
      Verif.AllOps BuiltIn r.after := by
  obtain ⟨D, hD, hS⟩ := settled hK hf h
  intro r hr
  obtain ⟨d, hd, hrd⟩ := forall2_left hD.rules hr
  exact (hrd.bodyOps BuiltIn).2 (hS d hd).1

/-- The parts of a successful load. -/
theorem load_parts {gparse parse : Str → Res (Option (Tree V))} {file : Option Str} {s0 s1 : Simp V} {b : Bool}
    (h : loadSimplification gparse parse file s0 = .ok (b, s1)) (hi : s1.initialized = true) :
    ∃ before, gparse "x'".toList = .ok before ∧ gparse "deriv(x, z)".toList = .ok s1.derivAfter ∧
      s1.derivBefore = before.bind fun t => (getPattern t []).toOption := by
  have hu : s0.unload.initialized = false := by
    unfold Simp.unload
    split
    · rfl
    · simpa using ‹¬ s0.initialized = true›
  unfold loadSimplification at h
  obtain ⟨⟨n, s2⟩, h1, h⟩ := Res.bind_eq_ok.1 h
  have hs : s2 = s1 := by
    simp only at h
    split at h <;> cases h <;> rfl
  subst hs
  unfold initSimplification at h1
  cases file with
  | none =>
    cases h1
    rw [hu] at hi
    cases hi
  | some text =>
    simp only at h1
    obtain ⟨⟨k, rs⟩, -, h1⟩ := Res.bind_eq_ok.1 h1
    simp only at h1
    split at h1
    · cases h1
      simp only [hu] at hi
      cases hi
    · obtain ⟨before, h2, h1⟩ := Res.bind_eq_ok.1 h1
      obtain ⟨after, h3, h1⟩ := Res.bind_eq_ok.1 h1
      obtain ⟨mal, -, h1⟩ := Res.bind_eq_ok.1 h1
      cases h1
      exact ⟨before, h2, h3, rfl⟩

theorem helper_valid {P : Op → Nat → Prop} {before : Option (Tree V)} {p : Pattern V}
    (h : (before.bind fun t => (getPattern t []).toOption) = some p) (hb : ∀ t, before = some t → Verif.AllOps P t) :
    Verif.AllOps P p.tree := by
  cases before with
  | none => cases h
  | some t =>
    simp only [Option.bind_some] at h
    cases hp : getPattern t [] with
    | error e => rw [hp] at h; cases h
    | ok q =>
      rw [hp] at h
      cases h
      rw [(getPattern_spec hp).tree, AllOps.withIds]
      exact hb t rfl

/-- When the rules are loaded, in any session and from any file, the helpers point to operators of the context. -/
theorem C107_helpers {K : Client V ε ρ} {s : Session V ρ} (h : Reachable K s)
    {parse : Str → Res (Option (Tree V))} {file : Option Str} {s0 s1 : Simp V} {b : Bool}
    (hl : loadSimplification (parseEasy s.ctx K.strtod) parse file s0 = .ok (b, s1)) (hi : s1.initialized = true) :
    (∀ p, s1.derivBefore = some p → Valid s.ctx p.tree) ∧ ∀ t, s1.derivAfter = some t → Valid s.ctx t := by
  obtain ⟨D, hD⟩ := h.sess
  obtain ⟨before, h1, h2, h3⟩ := load_parts hl hi
  have hk : ∀ {text : Str} {t : Tree V}, parseEasy s.ctx K.strtod text = .ok (some t) → Valid s.ctx t :=
    fun hp => (parse_known hD.ctx hD.arity hp).mono fun o n ho => ho.alive hD.ctx
  refine ⟨fun p hp => helper_valid (h3 ▸ hp) fun t ht => hk (ht ▸ h1), fun t ht => hk (ht ▸ h2)⟩

/-- If there is no function `x` or `z` when the rules are loaded, the helpers point to operators of the context in
every state of the session from then on (and in every other session). -/
theorem C107_helpers_partial {K : Client V ε ρ} {s : Session V ρ} (h : Reachable K s)
    (hx : ∀ p ∈ s.ctx.ops, p.2.name ≠ ['x'] ∧ p.2.name ≠ ['z']) (hs : ∀ tok ∈ helperToks, K.strtod tok = none)
    {parse : Str → Res (Option (Tree V))} {file : Option Str} {s0 s1 : Simp V} {b : Bool}
    (hl : loadSimplification (parseEasy s.ctx K.strtod) parse file s0 = .ok (b, s1)) (hi : s1.initialized = true)
    {s' : Session V ρ} (h' : Reachable K s') :
    (∃ p, s1.derivBefore = some p ∧ Valid s'.ctx p.tree) ∧ ∃ t, s1.derivAfter = some t ∧ Valid s'.ctx t := by
  obtain ⟨D, hD⟩ := h.sess
  obtain ⟨D', hD'⟩ := h'.sess
  obtain ⟨before, h1, h2, h3⟩ := load_parts hl hi
  have hu : ∀ u ∈ D.map (·.op), u.name ≠ ['x'] ∧ u.name ≠ ['z'] := by
    intro u hu
    obtain ⟨a, ha⟩ := hD.ctx.alive hu
    exact hx _ ha
  obtain ⟨g1, g2⟩ := parse_helper hD.ctx hu hs
  rw [g1] at h1
  rw [g2] at h2
  simp only [Res.ok.injEq] at h1 h2
  obtain ⟨c, -, hc⟩ := arithCtx_ok
  have k1 : Verif.AllOps (fun o n => BuiltIn o n) (primeTree : Tree V) :=
    .op ⟨⟨_, rfl, rfl⟩, .inr rfl⟩ (by simp only [List.mem_singleton, forall_eq]; exact .var)
  have k2 : Verif.AllOps (fun o n => BuiltIn o n) (derivTree : Tree V) :=
    .op ⟨⟨_, rfl, rfl⟩, .inr rfl⟩ (by
      simp only [List.mem_cons, List.not_mem_nil, or_false, forall_eq_or_imp, forall_eq]
      exact ⟨.var, .var⟩)
  subst h1
  simp only [Option.bind_some, getPattern_prime] at h3
  exact ⟨⟨_, h3, k1.mono fun o n ho => ho.alive hD'.ctx⟩, ⟨_, h2.symm, k2.mono fun o n ho => ho.alive hD'.ctx⟩⟩

/-! ## Violation -/

/-- After `x=5`, loading the shipped rules, and `clear x`, the pattern for derivatives points to the operator of the
constant `x`, which has been freed.  `find_matching` reads its number whenever a derivative is entered. -/
theorem C107_dangling : ∃ s s' s1 p, define false 200 "x=5" = .ok (s, true) ∧
    loadSimplification (parseEasy s.ctx decimal) (ruleParser id) (some shippedText) noRules = .ok (true, s1) ∧
    clearExec s "clear x".toList = .ok (s', true) ∧ s1.derivBefore = some p ∧ ¬ Valid s'.ctx p.tree := by
  have key : (match define false 200 "x=5" with
    | .ok (s, b) => b && (match clearExec s "clear x".toList with
      | .ok (s', b') => b' && s'.ctx.ops.all fun q => decide (q.2 ≠ userX)
      | _ => false)
    | _ => false) = true := by kernel_rfl
  have hl := load_eq (text := "x=5") (a := some (.op Shipped.o2 [.op userX [] 0] 1))
    (b := some (.op Shipped.o3 [.op userX [] 2, .var ['z'] 0 5] 0)) (by kernel_rfl)
  unfold loadAfter at hl
  obtain ⟨⟨s, b⟩, hd, hl⟩ := Out.bind_eq_ok.1 hl
  dsimp only at hl
  have hl := Out.of_eq_ok.1 hl
  rw [hd] at key
  simp only [Bool.and_eq_true] at key
  obtain ⟨rfl, key⟩ := key
  cases hc : clearExec s "clear x".toList with
  | defect => rw [hc] at key; cases key
  | ub => rw [hc] at key; cases key
  | ok y =>
    obtain ⟨s', b'⟩ := y
    rw [hc] at key
    simp only [Bool.and_eq_true, List.all_eq_true, decide_eq_true_eq] at key
    obtain ⟨rfl, key⟩ := key
    have hp : ((some (.op Shipped.o2 [.op userX [] 0] 1 : Tree ℚ)).bind fun t => (getPattern t []).toOption) =
        some ⟨.op Shipped.o2 [.op userX [] 0] 1, fun _ => []⟩ := by kernel_rfl
    refine ⟨s, s', _, _, hd, hl, hc, hp, ?_⟩
    intro hv
    obtain ⟨-, h2⟩ := AllOps.child hv
    obtain ⟨⟨a, ha⟩, -⟩ := AllOps.child (h2 (.op userX [] 0) (List.mem_singleton.2 rfl))
    exact key _ ha rfl

/-! ## Cases that meet the hypotheses -/

/-- The names of the functions, and the operators in their right sides. -/
def uses (is : List String) : Option (List (String × String)) :=
  match runState K0 is with
  | .ok (s, _) => some (s.funs.map fun r => (shape r.pattern.tree, shape r.after))
  | _ => none

/-- Functions using each other; `f` is cleared, `h` gets the number of `g`, `k` uses both. -/
example : uses ["f(x)=x+1", "g(x,y)=f(y)*x", "clear f", "h(x)=x", "k(a)=g(a,h(a))"] =
    some [("g(x,y)", "*(+(y,1),x)"), ("h(x)", "x"), ("k(a)", "*(+(a,1),a)")] := by decide +kernel

/-- Parameters that are lists: `s` is cleared, nothing of it is left in `t`. -/
example : uses ["s([x],y)=sum([x],y)", "t([a],b)=s(b,[a]+1)", "clear s"] =
    some [("t([a],b)", "sum(b,+([a],1))")] := by decide +kernel

/-- The number of operands is another matter: `[x]` gets no argument, and the sum has one operand. -/
theorem C107_operands_missing : uses ["s([x],[y])=[x]+1", "t(a)=s(a,2)", "clear s"] = some [("t(a)", "+(1)")] := by
  decide +kernel

theorem K0_stays : SimpStays K0 := by
  intro w h t w' u ht hs
  cases hs
  exact ht

/-- A state with brackets in a definition is one of `C107_functions`, `C107_clear` and `C107_evaluated`. -/
example {s s1 s2 : Session Nat Unit} {b1 b2 : Bool} (h : initSession () = .ok s)
    (h1 : definitionExec K0 s "s([x],y)=sum([x],y)".toList = .ok (s1, b1))
    (h2 : clearExec s1 "clear s".toList = .ok (s2, b2)) :
    Reachable K0 s2 ∧ SimpStays K0 ∧ K0.fuel < sizeMax :=
  ⟨.clear (.define (.start h) trivial (by decide) h1) trivial (by decide) h2, K0_stays, by decide⟩

/-- The state after `g(x,y)=f(y)*x` and `clear f` is one of `C107_operands_partial`. -/
example {s s1 s2 s3 : Session Nat Unit} {b1 b2 b3 : Bool} (h : initSession () = .ok s)
    (h1 : definitionExec K0 s "f(x)=x+1".toList = .ok (s1, b1))
    (h2 : definitionExec K0 s1 "g(x,y)=f(y)*x".toList = .ok (s2, b2))
    (h3 : clearExec s2 "clear f".toList = .ok (s3, b3)) :
    Reach K0 NoBrackets (fun _ => True) s3 ∧ SimpKeeps K0 ∧ K0.fuel < sizeMax := by
  refine ⟨.clear (.define (.define (.start h) ?_ (by decide) h1) ?_ (by decide) h2) trivial (by decide) h3, K0_keeps,
    by decide⟩ <;> (unfold NoBrackets; decide)

end Verif.OperatorMemoryProps
