import Verif.Model.Parser
import Verif.Spec.Juxtaposition
import Mathlib.Tactic.Basic

/-!
# Insertion of the glue operator
-/

namespace Verif
variable {V : Type}

/-- The same context without glue operator. -/
def Env.noGlue (E : Env) : Env := { E with glue := none }

theorem stepRest_noGlue (E : Env) (strtod : Str → Option V) (i : Nat) (tok : Str) (st : PState V) :
    stepRest E.noGlue strtod i tok st = stepRest E strtod i tok st := rfl

/-- While an operand is complete no parameter list is awaited. -/
def NoBoth (st : PState V) : Prop := st.awaitInfix = true → st.awaitParams = false

variable {E : Env} {strtod : Str → Option V}

theorem stepRest_await {i : Nat} {tok : Str} {st st' : PState V} (hn : NoBoth st)
    (hc : st.awaitInfix = true → continues E tok = true ∨ isOpeningParen tok = true)
    (h : stepRest E strtod i tok st = .ok st') :
    st'.awaitInfix = operandDone E st.awaitInfix tok ∧ NoBoth st' := by
  unfold stepRest at h
  unfold operandDone
  split at h
  · rename_i hop
    split at h
    · cases h
    · rename_i haw
      simp only [Except.ok.injEq] at h
      subst h
      simp only [hop, if_true]
      exact ⟨by simpa using haw, fun _ => rfl⟩
  · rename_i hop
    simp only [hop, Bool.false_eq_true, if_false]
    split at h
    · cases h
    · rename_i hap
      have hap' : st.awaitParams = false := by simpa using hap
      split at h
      · rename_i hcl
        simp only [hcl, if_true]
        unfold stepClosing at h
        repeat' split at h
        all_goals first
          | cases h; done
          | (simp only [Except.ok.injEq] at h
             subst h
             exact ⟨rfl, fun _ => hap'⟩)
      · rename_i hcl
        simp only [hcl, Bool.false_eq_true, if_false]
        split at h
        · rename_i hdl
          simp only [hdl, if_true]
          unfold stepDelimiter at h
          repeat' split at h
          all_goals first
            | cases h; done
            | (simp only [Except.ok.injEq] at h
               subst h
               exact ⟨rfl, fun _ => hap'⟩)
        · rename_i hdl
          simp only [hdl, Bool.false_eq_true, if_false]
          split at h
          · rename_i haw
            simp only [haw, if_true]
            unfold stepOperator at h
            split at h
            · rename_i hin
              split at h
              · cases h
              · simp only [Except.ok.injEq] at h
                subst h
                exact ⟨by simp [hin], fun _ => hap'⟩
            · rename_i hin
              repeat' split at h
              all_goals first
                | cases h; done
                | (simp only [Except.ok.injEq] at h
                   subst h
                   exact ⟨by simp [hin], fun _ => hap'⟩)
          · rename_i haw
            simp only [haw, Bool.false_eq_true, if_false]
            unfold stepOperand at h
            split at h
            · rename_i f hf
              split at h
              · cases h
              · split at h
                · rename_i hz
                  repeat' split at h
                  all_goals first
                    | cases h; done
                    | (simp only [Except.ok.injEq] at h
                       subst h
                       exact ⟨by simp [hf, hz], fun _ => hap'⟩)
                · rename_i hz
                  simp only [Except.ok.injEq] at h
                  subst h
                  refine ⟨?_, by simp [NoBoth]⟩
                  simp [hf, hz]
            · rename_i hf
              split at h
              · rename_i hp
                split at h
                · cases h
                · simp only [Except.ok.injEq] at h
                  subst h
                  exact ⟨by simp [hf, hp], by simp [NoBoth]⟩
              · rename_i hp
                unfold stepLeaf at h
                repeat' split at h
                all_goals first
                  | cases h; done
                  | (simp only [Except.ok.injEq] at h
                     subst h
                     exact ⟨by simp [hf, hp], fun _ => hap'⟩)

/-- What the glue operator must be. -/
structure GlueOk (E : Env) (g : Op) : Prop where
  glue : E.glue = some g
  infix_ : g.placement = .infix
  arity : g.arity = .fixed 2
  known : E.lookup g.name .infix = some g
  space : headIs isSpace g.name = false
  open_ : isOpeningParen g.name = false
  close : isClosingParen g.name = false
  delim : isDelimiter g.name = false

theorem runToks_glue {g : Op} (hg : GlueOk E g) (toks : List (Nat × Str)) (st : PState V)
    (hn : NoBoth st) :
    runToks E strtod toks st
      = runToks E.noGlue strtod (writeGlue E g.name st.awaitInfix toks) st := by
  induction toks generalizing st with
  | nil => rfl
  | cons x toks ih =>
    obtain ⟨i, tok⟩ := x
    unfold writeGlue
    cases hsp : headIs isSpace tok with
    | true =>
      simp only [if_true, runToks, stepTok, hsp]
      exact ih st hn
    | false =>
      simp only [Bool.false_eq_true, if_false]
      have key : ∀ st1 : PState V, NoBoth st1 →
          (st1.awaitInfix = true → continues E tok = true ∨ isOpeningParen tok = true) →
          (match stepRest E strtod i tok st1 with
            | .error e => .error e
            | .ok st' => runToks E strtod toks st')
          = runToks E.noGlue strtod ((i, tok) :: writeGlue E g.name
              (operandDone E st1.awaitInfix tok) toks) st1 := by
        intro st1 hn1 hc1
        simp only [runToks, stepTok, hsp, Bool.false_eq_true, if_false]
        have : stepGlue E.noGlue i tok st1 = .ok st1 := rfl
        rw [this]
        simp only [stepRest_noGlue]
        cases hr : stepRest E strtod i tok st1 with
        | error e => rfl
        | ok st' =>
          obtain ⟨h1, h2⟩ := stepRest_await hn1 hc1 hr
          simp only
          rw [← h1]
          exact ih st' h2
      cases hcond : (st.awaitInfix && !continues E tok) with
      | false =>
        simp only [Bool.false_eq_true, if_false]
        have hglue : stepGlue E i tok st = .ok st := by
          unfold stepGlue
          rw [hg.glue]
          simp only
          rw [if_neg]
          intro hc
          simp only [Bool.and_eq_true, Bool.not_eq_true', Option.isNone_iff_eq_none] at hc
          simp [continues, hc] at hcond
        rw [← key st hn]
        · simp only [runToks, stepTok, hsp, Bool.false_eq_true, if_false, hglue]
          cases stepRest E strtod i tok st <;> rfl
        · intro haw
          rw [haw] at hcond
          left
          simpa using hcond
      | true =>
        simp only [Bool.and_eq_true, Bool.not_eq_true'] at hcond
        obtain ⟨haw, hcont⟩ := hcond
        simp only [if_true]
        have hap := hn haw
        simp only [continues, Bool.or_eq_false_iff, Option.isSome_eq_false_iff,
          Option.isNone_iff_eq_none] at hcont
        have hdyn : startArity g = 2 := by
          unfold startArity
          rw [hg.infix_, hg.arity]
          rfl
        have hstep0 : stepTok E.noGlue strtod i g.name st =
            match pushOperator g i st.nodes st.ops with
            | .error e => .error e.exit
            | .ok (nodes, ops) => .ok { st with nodes := nodes, ops := ops, awaitInfix := false } := by
          unfold stepTok
          simp only [hg.space, Bool.false_eq_true, if_false]
          have : stepGlue E.noGlue i g.name st = .ok st := rfl
          rw [this]
          have hlk : E.noGlue.lookup g.name .infix = some g := hg.known
          simp only [stepRest, hg.open_, hg.close, hg.delim, hap, haw, Bool.false_eq_true, if_false,
            if_true, stepOperator, hlk]
          cases pushOperator g i st.nodes st.ops <;> rfl
        have hglue : stepGlue E i tok st = stepTok E.noGlue strtod i g.name st := by
          rw [hstep0]
          unfold stepGlue
          rw [hg.glue]
          simp only
          rw [if_pos (by simp [haw, hcont])]
          cases hp : pushOperator g i st.nodes st.ops with
          | error e => rfl
          | ok r =>
            obtain ⟨nodes, ops⟩ := r
            have hops : ∃ ops', ops = ⟨some g, startArity g, i⟩ :: ops' := by
              unfold pushOperator at hp
              split at hp
              · split at hp
                · cases hp
                · simp only [Except.ok.injEq, Prod.mk.injEq] at hp
                  exact ⟨_, hp.2.symm⟩
              · simp only [Except.ok.injEq, Prod.mk.injEq] at hp
                exact ⟨_, hp.2.symm⟩
            obtain ⟨ops', rfl⟩ := hops
            simp only [hdyn]
        conv => lhs; simp only [runToks]; unfold stepTok
        simp only [hsp, Bool.false_eq_true, if_false, hglue]
        conv => rhs; unfold runToks
        cases hs : stepTok E.noGlue strtod i g.name st with
        | error e => rfl
        | ok st1 =>
          simp only
          have h1 : st1.awaitInfix = false ∧ NoBoth st1 := by
            rw [hstep0] at hs
            split at hs
            · cases hs
            · simp only [Except.ok.injEq] at hs
              subst hs
              exact ⟨rfl, by simp [NoBoth]⟩
          have := key st1 h1.2 (by simp [h1.1])
          rw [h1.1] at this
          exact this

theorem parseIdx_glue {g : Op} (hg : GlueOk E g) (toks : List (Nat × Str)) (n : Nat) :
    parseIdx E strtod toks n = parseIdx E.noGlue strtod (writeGlue E g.name false toks) n := by
  unfold parseIdx
  rw [runToks_glue hg toks PState.init (by simp [NoBoth, PState.init])]
  rfl

end Verif
