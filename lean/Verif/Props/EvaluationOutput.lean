import Verif.Lemmas.Names
import Verif.Props.Printf
import Verif.Props.Simplify
import Verif.Props.Table

/-!
# What is printed of results (C90)
-/

namespace Verif.EvaluationProps
open Verif ParserProps SessionProps HelpProps TableProps PrinterProps PrintfProps PrintfSpec Printf
variable {V ε ρ : Type}

/-- A result is what `arith_parse` yields. -/
theorem evaluation_parse {K : Client V ε ρ} {s s' : Session V ρ} {input : Str} {t : Tree V}
    (h : evaluationExec K s input = .ok (s', some t)) : ∃ s1, arithParse K s input = .ok (s1, some t) := by
  unfold evaluationExec at h
  obtain ⟨⟨s1, o⟩, h1, h⟩ := Out.bind_eq_ok.1 h
  cases o with
  | none => cases h
  | some u =>
    have : t = u := by
      cases u <;> · dsimp only at h; cases h; rfl
    subst this
    exact ⟨s1, h1⟩

/-- **C90.** In every session (after definitions without brackets) the result of an evaluation is printed in one line, behind
`= ` in interactive mode; if there is none, nothing is printed.  Printing does not fail. -/
theorem C90_prints {K : Client V ε ρ} (hK : SimpKeeps K) (hfuel : K.fuel < sizeMax) {C : Str → Prop} {s : Session V ρ}
    (hs : Reach K TidyDef C s) (inter : Bool) (fmt : V → Str) (input : Str) :
    match evaluationExec K s input with
    | .ok (s', some t) => ∃ text, treeToStr fmt t = .ok text ∧
        evaluationText K inter fmt s input = .ok (s', some ((if inter then "= ".toList else []) ++ text ++ ['\n']))
    | .ok (s', none) => evaluationText K inter fmt s input = .ok (s', none)
    | .hang => evaluationText K inter fmt s input = .hang
    | .defect => evaluationText K inter fmt s input = .defect
    | .ub => evaluationText K inter fmt s input = .ub := by
  unfold evaluationText
  cases he : evaluationExec K s input with
  | hang => rfl
  | defect => rfl
  | ub => rfl
  | ok x =>
    obtain ⟨s', o⟩ := x
    cases o with
    | none => rfl
    | some t =>
      obtain ⟨s1, hp⟩ := evaluation_parse he
      obtain ⟨D, hD⟩ := hs.sess
      have ht := hs.tidy hK hfuel
      have hb : AllOps BuiltIn t := by
        unfold arithParse at hp
        obtain ⟨o, h1, hp⟩ := Out.bind_eq_ok.1 hp
        have h1 := Out.of_eq_ok.1 h1
        cases o with
        | none => cases hp
        | some raw =>
          obtain ⟨⟨w, r⟩, h2, hp⟩ := Out.bind_eq_ok.1 hp
          simp only [Out.pure_eq, Out.ok.injEq, Prod.mk.injEq] at hp
          obtain ⟨-, rfl⟩ := hp
          exact arithSimplify_ops hK hfuel hD ht (parse_known hD.ctx hD.arity h1) h2
      obtain ⟨ps, hps⟩ := builtIn_tree_prints fmt id t hb false false
      have e : treeToStr fmt t = .ok ps.flatten := by
        unfold treeToStr
        rw [hps]
        rfl
      refine ⟨ps.flatten, e, ?_⟩
      rw [Out.bind_ok]
      dsimp only
      rw [e]
      rfl

/-- Trees of which the constants are ordinary, with operators of the calculator. -/
theorem ordinary_tree {c : Ctx} {us : List Op} (hc : Holds c us) (t : Tree Dbl) (ho : AllOps BuiltIn t)
    (hk : TreeProps.AllConsts (fun v => ∃ q, v = .fin q ∧ Ordinary q) t)
    (hn : ∀ n ∈ t.names, isWord n = true ∧ c.env.lookup n .function = none ∧ c.env.lookup n .infix = none ∧ strtod n = none) :
    OrdinaryTree c.env t := by
  induction t using Tree.induct with
  | hc v i =>
    cases hk with
    | const h =>
      obtain ⟨q, rfl, h⟩ := h
      exact .const h
  | hv n x i =>
    obtain ⟨h1, h2, h3, h4⟩ := hn n (by simp [Tree.names])
    obtain ⟨h5, h6⟩ := isWord_iff.1 h1
    refine .var h5 h6 h2 h3 ?_
    intro hm
    simp only [List.mem_cons, List.not_mem_nil, or_false] at hm
    unfold strtod at h4
    rcases hm with hm | hm | hm <;> rw [hm] at h4
    · exact absurd h4 (by simp)
    · exact absurd h4 (by simp)
    · rw [if_neg (by decide), if_pos rfl] at h4
      cases h4
  | ho o cs i ih =>
    cases ho with
    | op h1 h2 =>
      cases hk with
      | op h3 =>
        refine .op ?_ h1.2 fun d hd => ih d hd (h2 d hd) (h3 d hd) fun n hm => hn n ?_
        · rw [hc.env]
          exact builtIn_lookup h1 us
        · rw [Tree.names]
          exact namesList_mem.2 ⟨d, hd, hm⟩

/-- Users define no infix operators. -/
theorem no_infix {c : Ctx} {us : List Op} (hc : Holds c us) {n : Str}
    (h : (builtin.map (·.2)).find? (fun o => o.name == n && o.placement == .infix) = none) : c.env.lookup n .infix = none := by
  rw [hc.env]
  simp only [arithEnv, List.find?_append, h, Option.none_or, List.find?_eq_none]
  intro o ho
  rw [(hc.user o ho).placement]
  simp

/-- **C90** (partial: the constants of the result must be ordinary; others are printed with an exponent or as `inf` or `nan`).
With doubles, in every session (after definitions without brackets, with no function `z`): what was printed of a result can be
entered again.  It is read as the result with every constant rounded to ten digits, which is printed in the same way. -/
theorem C90_again_partial {K : Client Dbl ε ρ} (hst : K.strtod = strtod) (hK : SimpKeeps K) (hN : SimpNames K) (hfuel : K.fuel < sizeMax)
    {C : Str → Prop} {s s' : Session Dbl ρ} (hs : Reach K TidyDef C s) (hz : s.ctx.env.lookup "z".toList .function = none)
    {input : Str} {t : Tree Dbl} (he : evaluationExec K s input = .ok (s', some t))
    (hc : TreeProps.AllConsts (fun v => ∃ q, v = .fin q ∧ Ordinary q) t) :
    ∃ text t', treeToStr general10 t = .ok text ∧ parseEasy s'.ctx K.strtod text = .ok (some t') ∧
      PrinterProps.Alike Near t t' ∧ treeToStr general10 t' = .ok text := by
  obtain ⟨s1, hp⟩ := evaluation_parse he
  obtain ⟨D, hD⟩ := hs.sess
  have ht := hs.tidy hK hfuel
  obtain ⟨ho, raw, hraw, hn⟩ := arithParse_names hK hN hfuel hD ht hp
  have hzi : s.ctx.env.lookup "z".toList .infix = none := no_infix hD.ctx (by decide +kernel)
  have hot : OrdinaryTree s.ctx.env t := by
    refine ordinary_tree hD.ctx t ho hc fun n hm => ?_
    rcases hn n hm with h | rfl
    · have hw := parse_words hD.ctx hraw n h
      rw [parseEasy_ok] at hraw
      obtain ⟨a, b, d⟩ := parse_free hraw n h
      exact ⟨hw, a, b, hst ▸ d⟩
    · exact ⟨by decide, hz, hzi, by decide⟩
  obtain ⟨text, t', h1, h2, h3, h4⟩ := C18_doubles_partial s.ctx hD.ctx.like t hot
  refine ⟨text, t', h1, ?_, h3, h4⟩
  rw [(evaluationExec_spec he).1, hst, parseEasy_ok]
  exact h2

/-- **C90.** The shipped rules introduce no variables but `z`; neither does the simplification without rules. -/
theorem C90_names {σ : Type} {st : Str → Option V} {D : Doubles V} (hD : D.Sane)
    {arith : σ → List V → Op → List V → Except ε V} {ve : ε} {next : SimplifyProps.World σ → SimplifyProps.World σ} {f : ℚ → V} {fuel : Nat} :
    SimpNames (SimplifyProps.client st D arith ve next f fuel) := by
  intro w h t w' u ht hs
  obtain ⟨r, h1, h2⟩ := Out.bind_eq_ok.1 hs
  simp only [Out.pure_eq, Out.ok.injEq, Prod.mk.injEq] at h2
  obtain ⟨-, rfl⟩ := h2
  intro n hn
  by_cases hl : w.loaded
  · rw [if_pos hl] at h1
    have := (SimplifyProps.C79_result _ hD f ht h1).2.1 n (by rw [varNames_eq]; exact hn)
    rwa [varNames_eq] at this
  · rw [if_neg hl] at h1
    simp only [Machine.simplify, SimplifyProps.noRules, Bool.not_false, if_true] at h1
    obtain ⟨x, hx⟩ := (Machine.fold_within _ (SimplifyProps.within_self ht) h1).names hn
    rwa [varNames_eq] at hx

/-! ## Concrete results -/

/-- A client that computes with doubles, as `printf` and `strtod` write and read them, and simplifies only what has a value. -/
def F : Client Dbl EvalErr Unit where
  strtod := strtod
  eqV := Dbl.eq
  simp w h t := .ok (w, .ok (match treeReduce (evalOp (Dbl.arith Dbl.round lib0) h 0 100) (.code .variableEncountered) t [] with
    | .ok v => .const v 0
    | .error _ => t))
  fuel := 1000

theorem F_simp {w : Unit} {h : List Dbl} {t : Tree Dbl} {w' : Unit} {u : Tree Dbl} (hs : F.simp w h t = .ok (w', .ok u)) :
    u = t ∨ ∃ v, u = .const v 0 := by
  simp only [F, Out.ok.injEq, Prod.mk.injEq, Except.ok.injEq] at hs
  obtain ⟨-, rfl⟩ := hs
  split
  · exact .inr ⟨_, rfl⟩
  · exact .inl rfl

/-- The hypotheses of `C90_again_partial` about the client. -/
theorem F_keeps : F.strtod = strtod ∧ SimpKeeps F ∧ SimpNames F ∧ F.fuel < sizeMax := by
  refine ⟨rfl, ?_, ?_, by decide⟩
  · intro w h t w' u ht hs
    rcases F_simp hs with rfl | ⟨v, rfl⟩
    · exact ht
    · exact .const
  · intro w h t w' u ht hs n hn
    rcases F_simp hs with rfl | ⟨v, rfl⟩
    · exact .inl hn
    · simp [Tree.names] at hn

/-- What is printed of the results of some inputs, one after the other. -/
def shown (s : Session Dbl Unit) : List String → Out (List (Option String))
  | [] => .ok []
  | i :: is => do
    let (s', r) ← evaluationText F true general10 s i.toList
    let rs ← shown s' is
    pure (r.map String.ofList :: rs)

def session (is : List String) : Out (List (Option String)) := do
  let s ← Out.of (initSession ())
  shown s is

example : session ["1/3", "0.3333333333", "ans*3", "2x+1/4"] =
    .ok [some "= 0.3333333333\n", some "= 0.3333333333\n", some "= 0.9999999999\n", some "= 2*x+1/4\n"] := by decide +kernel

/-- **C90**, negation of the full statement: a small result is printed with an exponent; entered again, `1e-05` is the product of 1
and e, minus 5. -/
theorem C90_exponent_witness : session ["1/100000", "1e-05"] = .ok [some "= 1e-05\n", some "= -2.281718172\n"] := by
  decide +kernel

/-- All of the hypotheses, for the result of `1/3`. -/
example : ∃ s s' t, Reach F TidyDef (fun _ => True) s ∧ s.ctx.env.lookup "z".toList .function = none ∧
    evaluationExec F s "1/3".toList = .ok (s', some t) ∧ TreeProps.AllConsts (fun v => ∃ q, v = .fin q ∧ Ordinary q) t := by
  have key : (match (initSession () : Res (Session Dbl Unit)) with
    | .ok s => (s.ctx.env.lookup "z".toList .function).isNone && (match evaluationExec F s "1/3".toList with
      | .ok (_, some (.const (.fin q) _)) => decide (1 / 10 ^ 4 - 5 / 10 ^ 15 ≤ q ∧ q < 10 ^ 10 - 1 / 2)
      | _ => false)
    | _ => false) = true := by decide +kernel
  revert key
  cases hs : (initSession () : Res (Session Dbl Unit)) with
  | defect => intro h; cases h
  | ub => intro h; cases h
  | ok s =>
    simp only [Bool.and_eq_true, Option.isNone_iff_eq_none]
    rintro ⟨hz, h⟩
    split at h
    · rename_i s' q i he
      exact ⟨s, s', _, .start hs, hz, he, .const ⟨q, rfl, .inr (of_decide_eq_true h)⟩⟩
    · cases h

end Verif.EvaluationProps
