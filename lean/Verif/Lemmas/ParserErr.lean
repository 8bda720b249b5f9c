import Verif.Lemmas.ParserInv

/-!
# Error codes and error tokens of the parser
-/

namespace Verif
variable {V : Type}

/-- The reported token fits the error code.  `toks` are the numbered tokens, `n`
their number (the position behind the last token). -/
def ErrFits (E : Env) (strtod : Str → Option V) (toks : List (Nat × Str)) (n : Nat) :
    PErr → Nat → Prop
  | .expectedInfix, k => ∃ tok, (k, tok) ∈ toks ∧ isClosingParen tok = false ∧
      isDelimiter tok = false ∧
      ((isOpeningParen tok = true ∧ (E.glue = none ∨ (E.lookup tok .infix).isSome ∨
          (E.lookup tok .postfix).isSome)) ∨
        (E.glue = none ∧ E.lookup tok .infix = none ∧ E.lookup tok .postfix = none))
  | .unexpectedInfix, k => ∃ tok, (k, tok) ∈ toks ∧ strtod tok = none ∧
      ((E.lookup tok .infix).isSome ∨ (E.lookup tok .postfix).isSome) ∧
      E.lookup tok .prefix = none ∧ E.lookup tok .function = none
  | .excessOpeningParen, k => k = n ∧ ∃ i tok, (i, tok) ∈ toks ∧ isOpeningParen tok = true
  | .unexpectedClosingParen, k => ∃ tok, (k, tok) ∈ toks ∧ isClosingParen tok = true
  | .unexpectedDelimiter, k => ∃ tok, (k, tok) ∈ toks ∧ isDelimiter tok = true
  | .functionWrongArity, k => ∃ tok, (k, tok) ∈ toks ∧
      ((∃ pl o, E.lookup tok pl = some o ∧ o.arity ≠ .dyn) ∨ ∃ g, E.glue = some g ∧ g.arity ≠ .dyn)
  | .unexpectedEndOfExpr, k => k = n
  | .expectedParamList, k => k = n ∨ ∃ tok, (k, tok) ∈ toks ∧ isOpeningParen tok = false
  | .unexpectedCharacter, k => ∃ tok, (k, tok) ∈ toks ∧ strtod tok = none ∧
      headIs isLetter tok = false ∧ headIs isSpace tok = false ∧
      (∀ pl, E.lookup tok pl = none) ∧ isOpeningParen tok = false ∧ isClosingParen tok = false ∧
      isDelimiter tok = false

/-- Where stack entries come from. -/
def FromTok (E : Env) (toks : List (Nat × Str)) (d : OpData) : Prop :=
  ∃ tok, (d.token, tok) ∈ toks ∧ match d.op with
    | none => isOpeningParen tok = true
    | some o => (∃ pl, E.lookup tok pl = some o) ∨ E.glue = some o

theorem popInsert_wrong {o : Op} {d : OpData} {nodes : List (Tree V)} {k : Nat}
    (h : popInsert o d nodes = .error (.wrongArity k)) : k = d.token ∧ o.arity ≠ .dyn := by
  unfold popInsert at h
  split at h
  · rename_i hc
    simp only [Except.error.injEq, PopErr.wrongArity.injEq] at h
    exact ⟨h.symm, hc.1⟩
  · split at h
    · cases h
    · split at h <;> cases h

theorem popWhile_wrong {p : Op → Bool} {nodes : List (Tree V)} {ops : List OpData} {k : Nat}
    (h : popWhile p nodes ops = .error (.wrongArity k)) :
    ∃ d ∈ ops, ∃ o, d.op = some o ∧ o.arity ≠ .dyn ∧ d.token = k := by
  induction ops generalizing nodes with
  | nil => simp [popWhile] at h
  | cons d ds ih =>
    simp only [popWhile] at h
    split at h
    · cases h
    · rename_i o ho
      split at h
      · split at h
        · rename_i e he
          simp only [Except.error.injEq] at h
          subst h
          obtain ⟨h1, h2⟩ := popInsert_wrong he
          exact ⟨d, by simp, o, ho, h2, h1.symm⟩
        · obtain ⟨d', h1, h2⟩ := ih h
          exact ⟨d', List.mem_cons_of_mem _ h1, h2⟩
      · cases h

theorem pushOperator_wrong {o : Op} {i : Nat} {nodes : List (Tree V)} {ops : List OpData} {k : Nat}
    (h : pushOperator o i nodes ops = .error (.wrongArity k)) :
    ∃ d ∈ ops, ∃ o, d.op = some o ∧ o.arity ≠ .dyn ∧ d.token = k := by
  unfold pushOperator at h
  split at h
  · split at h
    · rename_i e he
      simp only [Except.error.injEq] at h
      subst h
      exact popWhile_wrong he
    · cases h
  · cases h

theorem exit_err {e : PopErr} {x : PErr} {k : Nat} (h : (e.exit : PRes V) = .err x k) :
    x = .functionWrongArity ∧ e = .wrongArity k := by
  cases e <;> simp [PopErr.exit] at h
  exact ⟨h.1.symm, by rw [h.2]⟩

variable {E : Env} {strtod : Str → Option V}

theorem wrong_fits {toks : List (Nat × Str)} {n : Nat} {ops : List OpData}
    (hops : ∀ d ∈ ops, FromTok E toks d) {k : Nat}
    (h : ∃ d ∈ ops, ∃ o, d.op = some o ∧ o.arity ≠ .dyn ∧ d.token = k) :
    ErrFits E strtod toks n .functionWrongArity k := by
  obtain ⟨d, h1, o, h2, h3, rfl⟩ := h
  obtain ⟨tok, h4, h5⟩ := hops d h1
  rw [h2] at h5
  refine ⟨tok, h4, ?_⟩
  rcases h5 with ⟨pl, h5⟩ | h5
  · exact .inl ⟨pl, o, h5, h3⟩
  · exact .inr ⟨o, h5, h3⟩

/-- Entries of the stack after the tokens. -/
theorem popWhile_mem' {p : Op → Bool} {nodes : List (Tree V)} {ops : List OpData}
    {r : List (Tree V) × List OpData} (h : popWhile p nodes ops = .ok r) :
    ∀ d ∈ r.2, d ∈ ops := by
  induction ops generalizing nodes with
  | nil =>
    simp only [popWhile, Except.ok.injEq] at h
    subst h
    exact fun _ h => h
  | cons d ds ih =>
    simp only [popWhile] at h
    split at h
    · simp only [Except.ok.injEq] at h; subst h; exact fun _ h => h
    · split at h
      · split at h
        · cases h
        · intro x hx
          exact List.mem_cons_of_mem _ (ih h x hx)
      · simp only [Except.ok.injEq] at h; subst h; exact fun _ h => h

theorem pushOperator_mem {o : Op} {i : Nat} {nodes : List (Tree V)} {ops : List OpData}
    {r : List (Tree V) × List OpData} (h : pushOperator o i nodes ops = .ok r) :
    ∃ ops', r.2 = ⟨some o, startArity o, i⟩ :: ops' ∧ ∀ d ∈ ops', d ∈ ops := by
  unfold pushOperator at h
  split at h
  · split at h
    · cases h
    · rename_i he
      simp only [Except.ok.injEq] at h
      subst h
      exact ⟨_, rfl, popWhile_mem' he⟩
  · simp only [Except.ok.injEq] at h
    subst h
    exact ⟨ops, rfl, fun _ h => h⟩

theorem stepGlue_from {toks : List (Nat × Str)} {i : Nat} {tok : Str} (hi : (i, tok) ∈ toks)
    {st st' : PState V} (hst : ∀ d ∈ st.ops, FromTok E toks d)
    (h : stepGlue E i tok st = .ok st') :
    (∀ d ∈ st'.ops, FromTok E toks d) ∧
    (st'.awaitInfix = true → E.glue = none ∨ isClosingParen tok = true ∨ isDelimiter tok = true ∨
      (E.lookup tok .infix).isSome = true ∨ (E.lookup tok .postfix).isSome = true) := by
  unfold stepGlue at h
  split at h
  · rename_i hg
    simp only [Except.ok.injEq] at h
    subst h
    exact ⟨hst, fun _ => .inl hg⟩
  · rename_i g hg
    split at h
    · split at h
      · cases h
      · rename_i nodes d ops hp
        simp only [Except.ok.injEq] at h
        subst h
        obtain ⟨ops', h1, h2⟩ := pushOperator_mem hp
        simp only [List.cons.injEq] at h1
        obtain ⟨rfl, rfl⟩ := h1
        refine ⟨?_, by simp⟩
        intro d hd
        rcases List.mem_cons.mp hd with rfl | hd
        · exact ⟨tok, hi, .inr hg⟩
        · exact hst d (h2 d hd)
      · cases h
    · rename_i hc
      simp only [Except.ok.injEq] at h
      subst h
      refine ⟨hst, ?_⟩
      intro haw
      right
      simp only [haw, Bool.true_and, Bool.and_eq_true, Bool.not_eq_true', not_and,
        Bool.not_eq_true] at hc
      by_cases h1 : isClosingParen tok = true
      · exact .inl h1
      · by_cases h2 : isDelimiter tok = true
        · exact .inr (.inl h2)
        · by_cases h3 : (E.lookup tok .infix).isSome = true
          · exact .inr (.inr (.inl h3))
          · right; right; right
            have h1' : isClosingParen tok = false := by simpa using h1
            have h2' : isDelimiter tok = false := by simpa using h2
            have h3' : E.lookup tok .infix = none := by simpa using h3
            simp [h1', h2', h3'] at hc
            simpa using hc

theorem stepTok_from {toks : List (Nat × Str)} {n i : Nat} {tok : Str} (hi : (i, tok) ∈ toks)
    {st : PState V} (hst : ∀ d ∈ st.ops, FromTok E toks d) :
    (∀ st', stepTok E strtod i tok st = .ok st' → ∀ d ∈ st'.ops, FromTok E toks d) ∧
    (∀ e k, stepTok E strtod i tok st = .error (.err e k) → ErrFits E strtod toks n e k) := by
  unfold stepTok
  cases hsp : headIs isSpace tok with
  | true =>
    simp only [if_true]
    refine ⟨?_, by simp⟩
    intro st' h
    simp only [Except.ok.injEq] at h
    subst h
    exact hst
  | false =>
    simp only [Bool.false_eq_true, if_false]
    cases hg : stepGlue E i tok st with
    | error r =>
      refine ⟨by simp, ?_⟩
      intro e k h
      simp only [Except.error.injEq] at h
      subst h
      unfold stepGlue at hg
      split at hg
      · cases hg
      · split at hg
        · split at hg
          · rename_i e' he
            simp only [Except.error.injEq] at hg
            obtain ⟨rfl, rfl⟩ := exit_err hg
            exact wrong_fits hst (pushOperator_wrong he)
          · cases hg
          · simp at hg
        · cases hg
    | ok st1 =>
      simp only
      obtain ⟨hops, hglue⟩ := stepGlue_from hi hst hg
      unfold stepRest
      cases hop : isOpeningParen tok with
      | true =>
        simp only [if_true]
        cases haw : st1.awaitInfix with
        | true =>
          simp only [if_true]
          refine ⟨by simp, ?_⟩
          intro e k h
          simp only [Except.error.injEq, PRes.err.injEq] at h
          obtain ⟨rfl, rfl⟩ := h
          have hnc : isClosingParen tok = false ∧ isDelimiter tok = false := by
            simp only [isOpeningParen, Bool.or_eq_true, beq_iff_eq] at hop
            rcases hop with rfl | rfl <;> decide
          refine ⟨tok, hi, hnc.1, hnc.2, .inl ⟨hop, ?_⟩⟩
          rcases hglue haw with h | h | h | h
          · exact .inl h
          · rw [hnc.1] at h; cases h
          · rw [hnc.2] at h; cases h
          · exact .inr h
        | false =>
          simp only [Bool.false_eq_true, if_false]
          refine ⟨?_, by simp⟩
          intro st' h
          simp only [Except.ok.injEq] at h
          subst h
          intro d hd
          rcases List.mem_cons.mp hd with rfl | hd
          · exact ⟨tok, hi, hop⟩
          · exact hops d hd
      | false =>
        simp only [Bool.false_eq_true, if_false]
        cases hpar : st1.awaitParams with
        | true =>
          simp only [if_true]
          refine ⟨by simp, ?_⟩
          intro e k h
          simp only [Except.error.injEq, PRes.err.injEq] at h
          obtain ⟨rfl, rfl⟩ := h
          exact .inr ⟨tok, hi, hop⟩
        | false =>
        simp only [Bool.false_eq_true, if_false]
        cases hcl : isClosingParen tok with
        | true =>
          simp only [if_true]
          unfold stepClosing
          cases hp : popWhile (fun _ => true) st1.nodes st1.ops with
          | error e =>
            simp only
            refine ⟨by simp, ?_⟩
            intro x k h
            simp only [Except.error.injEq] at h
            cases e <;> simp only [PopErr.closing, PRes.err.injEq, reduceCtorEq] at h
            all_goals
              obtain ⟨rfl, rfl⟩ := h
              exact ⟨tok, hi, hcl⟩
          | ok r =>
            obtain ⟨nodes, ops⟩ := r
            have hm := popWhile_mem' hp
            cases ops with
            | nil =>
              simp only
              refine ⟨by simp, ?_⟩
              intro e k h
              simp only [Except.error.injEq, PRes.err.injEq] at h
              obtain ⟨rfl, rfl⟩ := h
              exact ⟨tok, hi, hcl⟩
            | cons d ops =>
              have hm' : ∀ d ∈ ops, FromTok E toks d :=
                fun d hd => hops d (hm d (List.mem_cons_of_mem _ hd))
              simp only
              constructor
              · intro st' h
                split at h
                · split at h
                  · rename_i o a k ops'
                    split at h
                    · simp only [Except.ok.injEq] at h
                      subst h
                      intro d hd
                      rcases List.mem_cons.mp hd with rfl | hd
                      · exact hm' ⟨some o, a, k⟩ (by simp)
                      · exact hm' d (by simp [hd])
                    · simp only [Except.ok.injEq] at h
                      subst h
                      exact hm'
                  · simp only [Except.ok.injEq] at h
                    subst h
                    exact hm'
                · split at h
                  · split at h
                    · cases h
                    · simp only [Except.ok.injEq] at h
                      subst h
                      exact hm'
                  · cases h
              · intro e k h
                have : e = .unexpectedClosingParen ∧ k = i := by
                  repeat' split at h
                  all_goals simp_all
                obtain ⟨rfl, rfl⟩ := this
                exact ⟨tok, hi, hcl⟩
        | false =>
        simp only [Bool.false_eq_true, if_false]
        cases hdl : isDelimiter tok with
        | true =>
          simp only [if_true]
          unfold stepDelimiter
          constructor
          · intro st' h
            split at h
            · cases h
            · split at h
              · cases h
              · rename_i nodes p o a k ops hp
                have hm := popWhile_mem' hp
                split at h
                · simp only [Except.ok.injEq] at h
                  subst h
                  intro d hd
                  rcases List.mem_cons.mp hd with rfl | hd
                  · exact hops _ (hm _ (by simp))
                  · rcases List.mem_cons.mp hd with rfl | hd
                    · exact hops ⟨some o, a, k⟩ (hm ⟨some o, a, k⟩ (by simp))
                    · exact hops _ (hm _ (by simp [hd]))
                · cases h
              · cases h
              · cases h
          · intro e k h
            split at h
            · simp only [Except.error.injEq, PRes.err.injEq] at h
              obtain ⟨rfl, rfl⟩ := h
              exact ⟨tok, hi, hdl⟩
            · split at h
              · rename_i e' he
                simp only [Except.error.injEq] at h
                obtain ⟨rfl, rfl⟩ := exit_err h
                exact wrong_fits hops (popWhile_wrong he)
              · split at h
                · cases h
                · simp only [Except.error.injEq, PRes.err.injEq] at h
                  obtain ⟨rfl, rfl⟩ := h
                  exact ⟨tok, hi, hdl⟩
              · simp at h
              · simp only [Except.error.injEq, PRes.err.injEq] at h
                obtain ⟨rfl, rfl⟩ := h
                exact ⟨tok, hi, hdl⟩
        | false =>
        simp only [Bool.false_eq_true, if_false]
        cases haw : st1.awaitInfix with
        | true =>
          simp only [if_true]
          unfold stepOperator
          constructor
          · intro st' h
            split at h
            · rename_i o ho
              split at h
              · cases h
              · rename_i nodes ops hp
                simp only [Except.ok.injEq] at h
                subst h
                obtain ⟨ops', h1, h2⟩ := pushOperator_mem hp
                simp only at h1
                subst h1
                intro d hd
                rcases List.mem_cons.mp hd with rfl | hd
                · exact ⟨tok, hi, .inl ⟨_, ho⟩⟩
                · exact hops d (h2 d hd)
            · split at h
              · split at h
                · cases h
                · cases h
                · rename_i nodes d ops hp
                  obtain ⟨ops', h1, h2⟩ := pushOperator_mem hp
                  simp only [List.cons.injEq] at h1
                  obtain ⟨rfl, rfl⟩ := h1
                  split at h
                  · cases h
                  all_goals
                    simp only [Except.ok.injEq] at h
                    subst h
                    exact fun d hd => hops d (h2 d hd)
              · cases h
          · intro e k h
            split at h
            · split at h
              · rename_i e' he
                simp only [Except.error.injEq] at h
                obtain ⟨rfl, rfl⟩ := exit_err h
                exact wrong_fits hops (pushOperator_wrong he)
              · cases h
            · rename_i hin
              split at h
              · split at h
                · rename_i e' he
                  simp only [Except.error.injEq] at h
                  obtain ⟨rfl, rfl⟩ := exit_err h
                  exact wrong_fits hops (pushOperator_wrong he)
                · simp at h
                · split at h
                  · simp at h
                  all_goals cases h
              · rename_i hpo
                simp only [Except.error.injEq, PRes.err.injEq] at h
                obtain ⟨rfl, rfl⟩ := h
                refine ⟨tok, hi, hcl, hdl, .inr ⟨?_, hin, hpo⟩⟩
                rcases hglue haw with h | h | h | h | h
                · exact h
                · rw [hcl] at h; cases h
                · rw [hdl] at h; cases h
                · rw [hin] at h; cases h
                · rw [hpo] at h; cases h
        | false =>
          simp only [Bool.false_eq_true, if_false]
          unfold stepOperand
          cases hf : E.lookup tok .function with
          | some f =>
            simp only
            cases hp : pushOperator f i st1.nodes st1.ops with
            | error e' =>
              simp only
              refine ⟨by simp, ?_⟩
              intro e k h
              simp only [Except.error.injEq] at h
              obtain ⟨rfl, rfl⟩ := exit_err h
              exact wrong_fits hops (pushOperator_wrong hp)
            | ok r =>
              obtain ⟨nodes, ops⟩ := r
              obtain ⟨ops', h1, h2⟩ := pushOperator_mem hp
              simp only at h1
              subst h1
              simp only
              constructor
              · intro st' h
                split at h
                · split at h
                  · cases h
                  · simp only [Except.ok.injEq] at h
                    subst h
                    exact fun d hd => hops d (h2 d hd)
                · simp only [Except.ok.injEq] at h
                  subst h
                  intro d hd
                  rcases List.mem_cons.mp hd with rfl | hd
                  · exact ⟨tok, hi, .inl ⟨_, hf⟩⟩
                  · exact hops d (h2 d hd)
              · intro e k h
                split at h
                · split at h
                  · rename_i e' he
                    simp only [Except.error.injEq] at h
                    obtain ⟨rfl, rfl⟩ := exit_err h
                    obtain ⟨rfl, h3⟩ := popInsert_wrong he
                    exact ⟨tok, hi, .inl ⟨_, f, hf, h3⟩⟩
                  · cases h
                · cases h
          | none =>
            simp only
            cases hpre : E.lookup tok .prefix with
            | some f =>
              simp only
              cases hp : pushOperator f i st1.nodes st1.ops with
              | error e' =>
                simp only
                refine ⟨by simp, ?_⟩
                intro e k h
                simp only [Except.error.injEq] at h
                obtain ⟨rfl, rfl⟩ := exit_err h
                exact wrong_fits hops (pushOperator_wrong hp)
              | ok r =>
                obtain ⟨nodes, ops⟩ := r
                obtain ⟨ops', h1, h2⟩ := pushOperator_mem hp
                simp only at h1
                subst h1
                simp only
                refine ⟨?_, by simp⟩
                intro st' h
                simp only [Except.ok.injEq] at h
                subst h
                intro d hd
                rcases List.mem_cons.mp hd with rfl | hd
                · exact ⟨tok, hi, .inl ⟨_, hpre⟩⟩
                · exact hops d (h2 d hd)
            | none =>
              simp only
              unfold stepLeaf
              cases hsd : strtod tok with
              | some v =>
                simp only
                refine ⟨?_, by simp⟩
                intro st' h
                simp only [Except.ok.injEq] at h
                subst h
                exact hops
              | none =>
                simp only
                split
                · rename_i hio
                  refine ⟨by simp, ?_⟩
                  intro e k h
                  simp only [Except.error.injEq, PRes.err.injEq] at h
                  obtain ⟨rfl, rfl⟩ := h
                  exact ⟨tok, hi, hsd, by simpa [Bool.or_eq_true] using hio, hpre, hf⟩
                · rename_i hio
                  simp only [Bool.or_eq_true, not_or, Bool.not_eq_true, Option.isSome_eq_false_iff,
                    Option.isNone_iff_eq_none] at hio
                  split
                  · rename_i hle
                    refine ⟨by simp, ?_⟩
                    intro e k h
                    simp only [Except.error.injEq, PRes.err.injEq] at h
                    obtain ⟨rfl, rfl⟩ := h
                    refine ⟨tok, hi, hsd, by simpa using hle, hsp, ?_, hop, hcl, hdl⟩
                    intro pl
                    cases pl
                    · exact hpre
                    · exact hio.1
                    · exact hio.2
                    · exact hf
                  · refine ⟨?_, by simp⟩
                    intro st' h
                    simp only [Except.ok.injEq] at h
                    subst h
                    exact hops

theorem runToks_from {all toks : List (Nat × Str)} {n : Nat} (hsub : ∀ x ∈ toks, x ∈ all)
    {st : PState V} (hst : ∀ d ∈ st.ops, FromTok E all d) :
    (∀ st', runToks E strtod toks st = .ok st' → ∀ d ∈ st'.ops, FromTok E all d) ∧
    (∀ e k, runToks E strtod toks st = .error (.err e k) → ErrFits E strtod all n e k) := by
  induction toks generalizing st with
  | nil =>
    refine ⟨?_, by simp [runToks]⟩
    intro st' h
    simp only [runToks, Except.ok.injEq] at h
    subst h
    exact hst
  | cons x toks ih =>
    obtain ⟨i, tok⟩ := x
    obtain ⟨h1, h2⟩ := stepTok_from (strtod := strtod) (n := n) (hsub (i, tok) (by simp)) hst
    cases hs : stepTok E strtod i tok st with
    | error r =>
      simp only [runToks, hs]
      refine ⟨by simp, ?_⟩
      intro e k h
      exact h2 e k (by rw [hs]; simpa using h)
    | ok st1 =>
      simp only [runToks, hs]
      exact ih (fun x hx => hsub x (by simp [hx])) (h1 st1 hs)

theorem popWhile_all_top {nodes : List (Tree V)} {ops : List OpData} {nodes' : List (Tree V)}
    {d : OpData} {ds : List OpData}
    (h : popWhile (fun _ => true) nodes ops = .ok (nodes', d :: ds)) : d.op = none := by
  induction ops generalizing nodes with
  | nil => simp [popWhile] at h
  | cons e es ih =>
    simp only [popWhile] at h
    split at h
    · rename_i he
      simp only [Except.ok.injEq, Prod.mk.injEq, List.cons.injEq] at h
      obtain ⟨-, rfl, -⟩ := h
      exact he
    · simp only [if_true] at h
      split at h
      · cases h
      · exact ih h

theorem parseIdx_err {toks : List (Nat × Str)} {n : Nat} {e : PErr} {k : Nat}
    (h : parseIdx E strtod toks n = .err e k) : ErrFits E strtod toks n e k := by
  obtain ⟨h1, h2⟩ := runToks_from (E := E) (strtod := strtod) (n := n) (all := toks) (toks := toks)
    (fun _ h => h) (st := PState.init) (by simp [PState.init])
  unfold parseIdx at h
  cases hr : runToks E strtod toks PState.init with
  | error r =>
    rw [hr] at h
    simp only at h
    subst h
    exact h2 e k hr
  | ok st =>
    rw [hr] at h
    have hops := h1 st hr
    simp only [finish] at h
    split at h
    · simp only [PRes.err.injEq] at h
      obtain ⟨rfl, rfl⟩ := h
      exact .inl rfl
    · split at h
      · simp only [PRes.err.injEq] at h
        obtain ⟨rfl, rfl⟩ := h
        rfl
      · split at h
        · rename_i e' he
          obtain ⟨rfl, rfl⟩ := exit_err h
          exact wrong_fits hops (popWhile_wrong he)
        · rename_i nodes d ds hp
          simp only [PRes.err.injEq] at h
          obtain ⟨rfl, rfl⟩ := h
          refine ⟨rfl, ?_⟩
          obtain ⟨tok, h3, h4⟩ := hops d (popWhile_mem' hp d (by simp))
          rw [popWhile_all_top hp] at h4
          exact ⟨_, tok, h3, h4⟩
        · cases h
        · cases h

end Verif
