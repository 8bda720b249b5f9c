import Verif.Model.Parser
import Mathlib.Tactic.ByContra
import Mathlib.Tactic.Basic

/-!
# A general invariant of the parser
-/

namespace Verif
variable {V : Type}

theorem popInsert_ok {o : Op} {d : OpData} {nodes nodes' : List (Tree V)}
    (h : popInsert o d nodes = .ok nodes') :
    (o.arity = .dyn ∨ o.arity = .fixed d.arity) ∧ d.arity ≤ nodes.length ∧
      nodes' = .op o (nodes.take d.arity).reverse d.token :: nodes.drop d.arity := by
  unfold popInsert at h
  split at h
  · cases h
  · rename_i h1
    split at h
    · cases h
    · split at h
      · cases h
      · rename_i h2
        refine ⟨?_, by omega, ?_⟩
        · by_cases hd : o.arity = .dyn
          · exact .inl hd
          · right
            by_contra hc
            exact h1 ⟨hd, hc⟩
        · simpa using h.symm

theorem stepTok_error_not_ok {E : Env} {strtod : Str → Option V} (i : Nat) (tok : Str)
    (st : PState V) (t : Tree V) : stepTok E strtod i tok st ≠ .error (.ok t) := by
  have ex : ∀ e : PopErr, (e.exit : PRes V) ≠ .ok t := by intro e; cases e <;> simp [PopErr.exit]
  have exc : ∀ e : PopErr, (e.closing i : PRes V) ≠ .ok t := by
    intro e; cases e <;> simp [PopErr.closing]
  intro he
  unfold stepTok at he
  split at he
  · cases he
  · split at he
    · rename_i hg
      unfold stepGlue at hg
      repeat' split at hg
      all_goals simp_all
    · unfold stepRest stepClosing stepDelimiter stepOperator stepOperand stepLeaf at he
      repeat' split at he
      all_goals simp_all

theorem runToks_error_not_ok {E : Env} {strtod : Str → Option V} (rest : List (Nat × Str))
    (st : PState V) (t : Tree V) : runToks E strtod rest st ≠ .error (.ok t) := by
  induction rest generalizing st with
  | nil => intro h; cases h
  | cons x rest ih =>
    intro h
    obtain ⟨i, tok⟩ := x
    simp only [runToks] at h
    split at h
    · rename_i e he
      simp only [Except.error.injEq] at h
      subst h
      exact stepTok_error_not_ok _ _ _ _ he
    · exact ih _ h

/-- `Q` of all nodes and `D` of all stack entries is preserved by the parser if
it holds of what is pushed. -/
structure InvHyp (E : Env) (strtod : Str → Option V) (toks : List (Nat × Str))
    (Q : Tree V → Prop) (D : OpData → Prop) : Prop where
  const : ∀ i tok v, (i, tok) ∈ toks → strtod tok = some v → Q (.const v i)
  var : ∀ i tok, (i, tok) ∈ toks → strtod tok = none → headIs isLetter tok = true →
    E.lookup tok .function = none → E.lookup tok .prefix = none →
    E.lookup tok .infix = none → E.lookup tok .postfix = none → Q (.var tok 0 i)
  paren : ∀ i tok a, (i, tok) ∈ toks → D ⟨none, a, i⟩
  push : ∀ i tok pl o a, (i, tok) ∈ toks → E.lookup tok pl = some o → D ⟨some o, a, i⟩
  glue : ∀ i tok o a, (i, tok) ∈ toks → E.glue = some o → D ⟨some o, a, i⟩
  arity : ∀ d a, D d → D { d with arity := a }
  pop : ∀ o d cs, D d → d.op = some o → (o.arity = .dyn ∨ o.arity = .fixed cs.length) →
    cs.length = d.arity → (∀ c ∈ cs, Q c) → Q (.op o cs d.token)

def Good (Q : Tree V → Prop) (D : OpData → Prop) (nodes : List (Tree V)) (ops : List OpData) : Prop :=
  (∀ t ∈ nodes, Q t) ∧ ∀ d ∈ ops, D d

section
variable {E : Env} {strtod : Str → Option V} {toks : List (Nat × Str)} {Q : Tree V → Prop}
  {D : OpData → Prop} (H : InvHyp E strtod toks Q D)
include H

theorem popInsert_good {o : Op} {d : OpData} {nodes nodes' : List (Tree V)}
    (hn : ∀ t ∈ nodes, Q t) (hd : D d) (ho : d.op = some o)
    (h : popInsert o d nodes = .ok nodes') : ∀ t ∈ nodes', Q t := by
  obtain ⟨h1, h2, rfl⟩ := popInsert_ok h
  intro t ht
  rcases List.mem_cons.mp ht with rfl | ht
  · have hlen : (nodes.take d.arity).reverse.length = d.arity := by simp [h2]
    refine H.pop o d _ hd ho ?_ hlen ?_
    · rcases h1 with h1 | h1
      · exact .inl h1
      · right; rw [h1, hlen]
    · intro c hc
      exact hn c (List.mem_of_mem_take (List.mem_reverse.mp hc))
  · exact hn t (List.mem_of_mem_drop ht)

theorem popWhile_good {p : Op → Bool} {nodes : List (Tree V)} {ops : List OpData}
    (h : Good Q D nodes ops) {r} (hr : popWhile p nodes ops = .ok r) : Good Q D r.1 r.2 := by
  induction ops generalizing nodes with
  | nil =>
    simp only [popWhile, Except.ok.injEq] at hr
    subst hr
    exact h
  | cons d ds ih =>
    simp only [popWhile] at hr
    split at hr
    · simp only [Except.ok.injEq] at hr
      subst hr
      exact h
    · rename_i o ho
      split at hr
      · split at hr
        · cases hr
        · rename_i nodes' hp
          exact ih ⟨popInsert_good H h.1 (h.2 d List.mem_cons_self) ho hp,
            fun d' hd' => h.2 d' (List.mem_cons_of_mem _ hd')⟩ hr
      · simp only [Except.ok.injEq] at hr
        subst hr
        exact h

theorem pushOperator_good {o : Op} {i : Nat} {nodes : List (Tree V)} {ops : List OpData}
    (h : Good Q D nodes ops) (hd : ∀ a, D ⟨some o, a, i⟩) {r}
    (hr : pushOperator o i nodes ops = .ok r) : Good Q D r.1 r.2 := by
  unfold pushOperator at hr
  split at hr
  · split at hr
    · cases hr
    · rename_i nodes' ops' hp
      simp only [Except.ok.injEq] at hr
      subst hr
      have := popWhile_good H h hp
      refine ⟨this.1, ?_⟩
      intro d hd'
      rcases List.mem_cons.mp hd' with rfl | hd'
      · exact hd _
      · exact this.2 d hd'
  · simp only [Except.ok.injEq] at hr
    subst hr
    refine ⟨h.1, ?_⟩
    intro d hd'
    rcases List.mem_cons.mp hd' with rfl | hd'
    · exact hd _
    · exact h.2 d hd'

theorem stepGlue_good {i : Nat} {tok : Str} (hm : (i, tok) ∈ toks) {st st' : PState V}
    (h : Good Q D st.nodes st.ops) (hr : stepGlue E i tok st = .ok st') :
    Good Q D st'.nodes st'.ops := by
  unfold stepGlue at hr
  split at hr
  · simp only [Except.ok.injEq] at hr
    subst hr; exact h
  · rename_i g hg
    split at hr
    · split at hr
      · cases hr
      · rename_i nodes d ops hp
        simp only [Except.ok.injEq] at hr
        subst hr
        have := pushOperator_good H h (fun a => H.glue i tok g a hm hg) hp
        refine ⟨this.1, ?_⟩
        intro d' hd'
        rcases List.mem_cons.mp hd' with rfl | hd'
        · exact H.arity d 2 (this.2 d List.mem_cons_self)
        · exact this.2 d' (List.mem_cons_of_mem _ hd')
      · cases hr
    · simp only [Except.ok.injEq] at hr
      subst hr; exact h

theorem stepClosing_good {i : Nat} {st st' : PState V}
    (h : Good Q D st.nodes st.ops) (hr : stepClosing i st = .ok st') :
    Good Q D st'.nodes st'.ops := by
  unfold stepClosing at hr
  split at hr
  · cases hr
  · cases hr
  · rename_i nodes d ops hp
    have hg := popWhile_good H h hp
    have hg' : Good Q D nodes ops := ⟨hg.1, fun d' hd' => hg.2 d' (List.mem_cons_of_mem _ hd')⟩
    split at hr
    · split at hr
      · rename_i o a k ops'
        split at hr
        · simp only [Except.ok.injEq] at hr
          subst hr
          refine ⟨hg'.1, ?_⟩
          intro d' hd'
          rcases List.mem_cons.mp hd' with rfl | hd'
          · exact H.arity ⟨some o, a, k⟩ (a + 1) (hg'.2 _ List.mem_cons_self)
          · exact hg'.2 d' (List.mem_cons_of_mem _ hd')
        · simp only [Except.ok.injEq] at hr
          subst hr; exact hg'
      · simp only [Except.ok.injEq] at hr
        subst hr; exact hg'
    · split at hr
      · split at hr
        · cases hr
        · simp only [Except.ok.injEq] at hr
          subst hr; exact hg'
      · cases hr

theorem stepDelimiter_good {i : Nat} {st st' : PState V}
    (h : Good Q D st.nodes st.ops) (hr : stepDelimiter i st = .ok st') :
    Good Q D st'.nodes st'.ops := by
  unfold stepDelimiter at hr
  split at hr
  · cases hr
  · split at hr
    · cases hr
    · rename_i nodes p o a k ops hp
      have hg := popWhile_good H h hp
      split at hr
      · simp only [Except.ok.injEq] at hr
        subst hr
        refine ⟨hg.1, ?_⟩
        intro d' hd'
        simp only [List.mem_cons] at hd'
        rcases hd' with rfl | rfl | hd'
        · exact hg.2 _ (by simp)
        · exact H.arity ⟨some o, a, k⟩ (a + 1) (hg.2 _ (by simp))
        · exact hg.2 d' (by simp [hd'])
      · cases hr
    · cases hr
    · cases hr

theorem stepLeaf_good {i : Nat} {tok : Str} (hm : (i, tok) ∈ toks) {st st' : PState V}
    (hf : E.lookup tok .function = none) (hpre : E.lookup tok .prefix = none)
    (h : Good Q D st.nodes st.ops) (hr : stepLeaf E strtod i tok st = .ok st') :
    Good Q D st'.nodes st'.ops := by
  unfold stepLeaf at hr
  split at hr
  · rename_i v hv
    simp only [Except.ok.injEq] at hr
    subst hr
    refine ⟨?_, h.2⟩
    intro t ht
    rcases List.mem_cons.mp ht with rfl | ht
    · exact H.const i tok v hm hv
    · exact h.1 t ht
  · rename_i hv
    split at hr
    · cases hr
    · rename_i hno
      simp only [Bool.or_eq_true, not_or, Bool.not_eq_true, Option.isSome_eq_false_iff,
        Option.isNone_iff_eq_none] at hno
      split at hr
      · cases hr
      · rename_i hlet
        simp only [Except.ok.injEq] at hr
        subst hr
        refine ⟨?_, h.2⟩
        intro t ht
        rcases List.mem_cons.mp ht with rfl | ht
        · exact H.var i tok hm hv (by simpa using hlet) hf hpre hno.1 hno.2
        · exact h.1 t ht

theorem stepOperand_good {i : Nat} {tok : Str} (hm : (i, tok) ∈ toks) {st st' : PState V}
    (h : Good Q D st.nodes st.ops) (hr : stepOperand E strtod i tok st = .ok st') :
    Good Q D st'.nodes st'.ops := by
  unfold stepOperand at hr
  split at hr
  · rename_i f hf
    split at hr
    · cases hr
    · rename_i nodes ops hp
      have hp0 := hp
      have hg := pushOperator_good H h (fun a => H.push i tok _ f a hm hf) hp
      split at hr
      · split at hr
        · cases hr
        · rename_i d ops'
          split at hr
          · cases hr
          · rename_i nodes' hpi
            simp only [Except.ok.injEq] at hr
            subst hr
            have ho : d.op = some f := by
              unfold pushOperator at hp0
              split at hp0
              · split at hp0
                · cases hp0
                · simp only [Except.ok.injEq, Prod.mk.injEq, List.cons.injEq] at hp0
                  rw [← hp0.2.1]
              · simp only [Except.ok.injEq, Prod.mk.injEq, List.cons.injEq] at hp0
                rw [← hp0.2.1]
            exact ⟨popInsert_good H hg.1 (hg.2 d List.mem_cons_self) ho hpi,
              fun d' hd' => hg.2 d' (List.mem_cons_of_mem _ hd')⟩
      · simp only [Except.ok.injEq] at hr
        subst hr; exact hg
  · rename_i hf
    split at hr
    · rename_i p hp
      split at hr
      · cases hr
      · rename_i nodes ops hpu
        simp only [Except.ok.injEq] at hr
        subst hr
        exact pushOperator_good H h (fun a => H.push i tok _ p a hm hp) hpu
    · rename_i hp
      exact stepLeaf_good H hm hf hp h hr

theorem stepOperator_good {i : Nat} {tok : Str} (hm : (i, tok) ∈ toks) {st st' : PState V}
    (h : Good Q D st.nodes st.ops) (hr : stepOperator E i tok st = .ok st') :
    Good Q D st'.nodes st'.ops := by
  unfold stepOperator at hr
  split at hr
  · rename_i o ho
    split at hr
    · cases hr
    · rename_i nodes ops hpu
      simp only [Except.ok.injEq] at hr
      subst hr
      exact pushOperator_good H h (fun a => H.push i tok _ o a hm ho) hpu
  · split at hr
    · rename_i o ho
      split at hr
      · cases hr
      · cases hr
      · rename_i nodes d ops hp0
        have hg := pushOperator_good H h (fun a => H.push i tok _ o a hm ho) hp0
        have hops : ∀ d' ∈ ops, D d' := fun d' hd' => hg.2 d' (List.mem_cons_of_mem _ hd')
        split at hr
        · cases hr
        · simp only [Except.ok.injEq] at hr
          subst hr
          exact ⟨by simp, hops⟩
        · simp only [Except.ok.injEq] at hr
          subst hr
          exact ⟨hg.1, hops⟩
        · rename_i nodes' hpi
          simp only [Except.ok.injEq] at hr
          subst hr
          have ho : d.op = some o := by
            unfold pushOperator at hp0
            split at hp0
            · split at hp0
              · cases hp0
              · simp only [Except.ok.injEq, Prod.mk.injEq, List.cons.injEq] at hp0
                rw [← hp0.2.1]
            · simp only [Except.ok.injEq, Prod.mk.injEq, List.cons.injEq] at hp0
              rw [← hp0.2.1]
          exact ⟨popInsert_good H hg.1 (hg.2 d List.mem_cons_self) ho hpi, hops⟩
    · cases hr

theorem stepTok_good {i : Nat} {tok : Str} (hm : (i, tok) ∈ toks) {st st' : PState V}
    (h : Good Q D st.nodes st.ops) (hr : stepTok E strtod i tok st = .ok st') :
    Good Q D st'.nodes st'.ops := by
  unfold stepTok at hr
  split at hr
  · simp only [Except.ok.injEq] at hr
    subst hr; exact h
  · split at hr
    · cases hr
    · rename_i st1 hg
      have h1 := stepGlue_good H hm h hg
      unfold stepRest at hr
      split at hr
      · split at hr
        · cases hr
        · simp only [Except.ok.injEq] at hr
          subst hr
          refine ⟨h1.1, ?_⟩
          intro d hd
          rcases List.mem_cons.mp hd with rfl | hd
          · exact H.paren i tok _ hm
          · exact h1.2 d hd
      · split at hr
        · cases hr
        · split at hr
          · exact stepClosing_good H h1 hr
          · split at hr
            · exact stepDelimiter_good H h1 hr
            · split at hr
              · exact stepOperator_good H hm h1 hr
              · exact stepOperand_good H hm h1 hr

theorem runToks_good {rest : List (Nat × Str)} (hsub : ∀ x ∈ rest, x ∈ toks) {st st' : PState V}
    (h : Good Q D st.nodes st.ops) (hr : runToks E strtod rest st = .ok st') :
    Good Q D st'.nodes st'.ops := by
  induction rest generalizing st with
  | nil =>
    simp only [runToks, Except.ok.injEq] at hr
    subst hr; exact h
  | cons x rest ih =>
    obtain ⟨i, tok⟩ := x
    simp only [runToks] at hr
    split at hr
    · cases hr
    · rename_i st1 h1
      exact ih (fun x hx => hsub x (List.mem_cons_of_mem _ hx))
        (stepTok_good H (hsub _ List.mem_cons_self) h h1) hr

theorem parseIdx_good {n : Nat} {t : Tree V} (hr : parseIdx E strtod toks n = .ok t) : Q t := by
  unfold parseIdx at hr
  split at hr
  · -- errors raised inside the loop are never `ok`
    rename_i r he
    subst hr
    exfalso
    exact runToks_error_not_ok toks _ t he
  · rename_i st hs
    have hg := runToks_good H (fun x hx => hx) (st := PState.init) ⟨by simp [PState.init],
      by simp [PState.init]⟩ hs
    unfold finish at hr
    split at hr
    · cases hr
    · split at hr
      · cases hr
      · split at hr
        · rename_i e _
          cases e <;> simp [PopErr.exit] at hr
        · cases hr
        · cases hr
        · rename_i t' l hp
          simp only [PRes.ok.injEq] at hr
          subst hr
          exact (popWhile_good H hg hp).1 _ List.mem_cons_self

end
end Verif
