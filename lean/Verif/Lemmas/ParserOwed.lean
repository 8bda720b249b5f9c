import Verif.Lemmas.ParserInv
import Verif.Spec.Operands

/-!
# At most one node is left when the parser succeeds

An upper bound of the number of nodes on the stack, for every context with operators of
the usual arities and every glue operator.
-/

namespace Verif
open OperandsSpec
variable {V : Type}

/-- How many nodes popping the entries takes away; `above` says whether a parameter list is
open above the topmost entry. -/
def owed : Bool → List OpData → Int
  | _, [] => 0
  | above, d :: ds =>
    match d.op with
    | none => owed true ds
    | some o => (if above && o.placement == .function then (d.arity : Int) else (d.arity : Int) - 1) + owed false ds

theorem owed_mono (ops : List OpData) : owed false ops ≤ owed true ops := by
  cases ops with
  | nil => simp [owed]
  | cons d ds =>
    unfold owed
    cases d.op with
    | none => simp
    | some o => simp only [Bool.false_and, Bool.false_eq_true, if_false]; split <;> omega

/-- The bound. -/
structure Bounded (st : PState V) : Prop where
  excl : st.awaitParams = true → st.awaitInfix = false
  le : (st.nodes.length : Int) ≤ owed st.awaitParams st.ops + (if st.awaitInfix then 1 else 0)

theorem popInsert_owed {o : Op} {d : OpData} {nodes nodes' : List (Tree V)} {ds : List OpData}
    (ho : d.op = some o) {e : Int} (h : (nodes.length : Int) ≤ owed false (d :: ds) + e)
    (hp : popInsert o d nodes = .ok nodes') : (nodes'.length : Int) ≤ owed false ds + e := by
  obtain ⟨-, h2, rfl⟩ := popInsert_ok hp
  simp only [owed, ho, Bool.false_and, Bool.false_eq_true, if_false] at h
  simp only [List.length_cons, List.length_drop]
  omega

theorem popWhile_owed {p : Op → Bool} : ∀ {ops : List OpData} {nodes : List (Tree V)} {e : Int}
    {r : List (Tree V) × List OpData}, (nodes.length : Int) ≤ owed false ops + e →
    popWhile p nodes ops = .ok r → (r.1.length : Int) ≤ owed false r.2 + e := by
  intro ops
  induction ops with
  | nil => intro nodes e r h hp; simp only [popWhile, Except.ok.injEq] at hp; rw [← hp]; exact h
  | cons d ds ih =>
    intro nodes e r h hp
    unfold popWhile at hp
    cases ho : d.op with
    | none => rw [ho] at hp; simp only [Except.ok.injEq] at hp; rw [← hp]; exact h
    | some o =>
      rw [ho] at hp
      simp only at hp
      split at hp
      · cases hi : popInsert o d nodes with
        | error e => rw [hi] at hp; cases hp
        | ok nodes' =>
          rw [hi] at hp
          exact ih (popInsert_owed ho h hi) hp
      · simp only [Except.ok.injEq] at hp; rw [← hp]; exact h

theorem pushOperator_owed {o : Op} {i : Nat} {nodes : List (Tree V)} {ops : List OpData} {e : Int}
    {r : List (Tree V) × List OpData} (h : (nodes.length : Int) ≤ owed false ops + e)
    (hp : pushOperator o i nodes ops = .ok r) :
    ∃ ops', r.2 = ⟨some o, startArity o, i⟩ :: ops' ∧ (r.1.length : Int) ≤ owed false ops' + e := by
  unfold pushOperator at hp
  split at hp
  · cases hw : popWhile (pops o) nodes ops with
    | error e => rw [hw] at hp; cases hp
    | ok a =>
      rw [hw] at hp
      obtain ⟨a1, a2⟩ := a
      simp only [Except.ok.injEq] at hp
      rw [← hp]
      exact ⟨a2, rfl, popWhile_owed h hw⟩
  · simp only [Except.ok.injEq] at hp
    rw [← hp]
    exact ⟨ops, rfl, h⟩

theorem startArity_prefix_le {o : Op} (h : HasOperands o) (hp : o.placement = .prefix ∨ o.placement = .postfix) :
    1 ≤ startArity o := by
  unfold HasOperands at h
  unfold startArity
  rcases hp with hp | hp <;> rw [hp] at h ⊢ <;> cases ha : o.arity <;> simp_all [sizeMax]

theorem startArity_infix_le {o : Op} (h : HasOperands o) (hp : o.placement = .infix) : 2 ≤ startArity o := by
  unfold HasOperands at h
  unfold startArity
  rw [hp] at h ⊢
  cases ha : o.arity <;> simp_all [sizeMax]

variable {E : Env} {strtod : Str → Option V}

theorem stepGlue_owed {i : Nat} {tok : Str} {st st' : PState V} (h : Bounded st)
    (hs : stepGlue E i tok st = .ok st') : Bounded st' := by
  unfold stepGlue at hs
  cases hg : E.glue with
  | none => rw [hg] at hs; cases hs; exact h
  | some g =>
    rw [hg] at hs
    simp only at hs
    split at hs
    · next hc =>
      have haw : st.awaitInfix = true := by simp only [Bool.and_eq_true] at hc; exact hc.1.1.1.1
      have hpa : st.awaitParams = false := by
        cases hq : st.awaitParams with
        | false => rfl
        | true => exact absurd (h.excl hq) (by simp [haw])
      have hle := h.le
      rw [haw, hpa] at hle
      cases hp : pushOperator g i st.nodes st.ops with
      | error e => rw [hp] at hs; cases hs
      | ok a =>
        obtain ⟨ops', h1, h2⟩ := pushOperator_owed hle hp
        obtain ⟨a1, a2⟩ := a
        simp only at h1 h2
        subst h1
        rw [hp] at hs
        simp only [Except.ok.injEq] at hs
        subst hs
        refine ⟨by simp, ?_⟩
        simp only [hpa, owed, Bool.false_and, Bool.false_eq_true, if_false]
        simp only [if_true] at h2
        omega
    · cases hs; exact h

theorem stepClosing_owed {i : Nat} {st st' : PState V} (h : Bounded st) (hpa : st.awaitParams = false)
    (hs : stepClosing i st = .ok st') : Bounded st' := by
  unfold stepClosing at hs
  have hle := h.le
  rw [hpa] at hle
  cases hp : popWhile (fun _ => true) st.nodes st.ops with
  | error e => rw [hp] at hs; cases hs
  | ok a =>
    have hw := popWhile_owed hle hp
    have htop : ∀ d ds, a.2 = d :: ds → d.op = none := by
      intro d ds hd
      have : ∀ (ops : List OpData) (nodes : List (Tree V)) (r : List (Tree V) × List OpData),
          popWhile (fun _ => true) nodes ops = .ok r → ∀ d ds, r.2 = d :: ds → d.op = none := by
        intro ops
        induction ops with
        | nil => intro nodes r hr d ds hd; simp only [popWhile, Except.ok.injEq] at hr; rw [← hr] at hd; cases hd
        | cons x xs ih =>
          intro nodes r hr d ds hd
          unfold popWhile at hr
          cases hx : x.op with
          | none => rw [hx] at hr; simp only [Except.ok.injEq] at hr; rw [← hr] at hd; cases hd; exact hx
          | some o =>
            rw [hx] at hr
            simp only [if_true] at hr
            cases hi : popInsert o x nodes with
            | error e => rw [hi] at hr; cases hr
            | ok n => rw [hi] at hr; exact ih _ _ hr d ds hd
      exact this _ _ _ hp d ds hd
    obtain ⟨nodes, ops⟩ := a
    rw [hp] at hs
    cases ops with
    | nil => cases hs
    | cons d ds =>
      have hd := htop d ds rfl
      simp only [owed, hd] at hw
      simp only at hs
      split at hs
      · next haw =>
        simp only [haw, if_true] at hw
        rcases ds with _ | ⟨⟨_ | o, a, k⟩, ds⟩
        · cases hs
          exact ⟨by simp [hpa], by simpa [hpa, owed] using hw⟩
        · cases hs
          exact ⟨by simp [hpa], by simpa [hpa, owed] using hw⟩
        · simp only at hs
          simp only [owed] at hw
          split at hs
          · next hf =>
            cases hs
            refine ⟨by simp [hpa], ?_⟩
            simp [hf] at hw
            simp [hpa, owed]
            omega
          · next hf =>
            cases hs
            refine ⟨by simp [hpa], ?_⟩
            simp [hf] at hw
            simp [hpa, owed]
            omega
      · next haw =>
        rcases ds with _ | ⟨⟨_ | o, a, k⟩, ds⟩
        · cases hs
        · cases hs
        · simp only at hs
          split at hs
          · cases hs
          · next hc =>
            cases hs
            simp only [ne_eq, not_or, not_not] at hc
            refine ⟨by simp [hpa], ?_⟩
            simp [owed, hc.1, hc.2, haw] at hw
            simp [hpa, owed, hc.2]
            omega

theorem stepDelimiter_owed {i : Nat} {st st' : PState V} (h : Bounded st) (hpa : st.awaitParams = false)
    (hs : stepDelimiter i st = .ok st') : Bounded st' := by
  unfold stepDelimiter at hs
  split at hs
  · cases hs
  · next haw =>
    have haw : st.awaitInfix = true := by simpa using haw
    have hle := h.le
    rw [hpa, haw] at hle
    cases hp : popWhile (fun _ => true) st.nodes st.ops with
    | error e => rw [hp] at hs; cases hs
    | ok a =>
      have hw := popWhile_owed hle hp
      have htop : ∀ d ds, a.2 = d :: ds → d.op = none := by
        intro d ds hd
        have : ∀ (ops : List OpData) (nodes : List (Tree V)) (r : List (Tree V) × List OpData),
            popWhile (fun _ => true) nodes ops = .ok r → ∀ d ds, r.2 = d :: ds → d.op = none := by
          intro ops
          induction ops with
          | nil => intro nodes r hr d ds hd; simp only [popWhile, Except.ok.injEq] at hr; rw [← hr] at hd; cases hd
          | cons x xs ih =>
            intro nodes r hr d ds hd
            unfold popWhile at hr
            cases hx : x.op with
            | none => rw [hx] at hr; simp only [Except.ok.injEq] at hr; rw [← hr] at hd; cases hd; exact hx
            | some o =>
              rw [hx] at hr
              simp only [if_true] at hr
              cases hi : popInsert o x nodes with
              | error e => rw [hi] at hr; cases hr
              | ok n => rw [hi] at hr; exact ih _ _ hr d ds hd
        exact this _ _ _ hp d ds hd
      obtain ⟨nodes, ops⟩ := a
      rw [hp] at hs
      rcases ops with _ | ⟨d, _ | ⟨⟨_ | o, a, k⟩, ds⟩⟩
      · cases hs
      · cases hs
      · cases hs
      · have hd := htop d _ rfl
        simp only at hs
        split at hs
        · next hf =>
          cases hs
          refine ⟨by simp, ?_⟩
          simp [owed, hd, hf] at hw
          simp [hpa, owed, hd, hf]
          omega
        · cases hs

theorem stepLeaf_owed {i : Nat} {tok : Str} {st st' : PState V} (h : Bounded st) (hpa : st.awaitParams = false)
    (haw : st.awaitInfix = false) (hs : stepLeaf E strtod i tok st = .ok st') : Bounded st' := by
  have hle := h.le
  rw [hpa, haw] at hle
  unfold stepLeaf at hs
  have key : ∀ t : Tree V, Bounded { st with nodes := t :: st.nodes, awaitInfix := true } := by
    intro t
    refine ⟨by simp [hpa], ?_⟩
    simp [hpa]
    simpa using hle
  split at hs
  · cases hs; exact key _
  · split at hs
    · cases hs
    · split at hs
      · cases hs
      · cases hs; exact key _

theorem stepOperand_owed (hE : Usual E) {i : Nat} {tok : Str} {st st' : PState V} (h : Bounded st)
    (hpa : st.awaitParams = false) (haw : st.awaitInfix = false)
    (hs : stepOperand E strtod i tok st = .ok st') : Bounded st' := by
  have hle := h.le
  rw [hpa, haw] at hle
  unfold stepOperand at hs
  cases hf : E.lookup tok .function with
  | some f =>
    rw [hf] at hs
    simp only at hs
    cases hp : pushOperator f i st.nodes st.ops with
    | error e => rw [hp] at hs; cases hs
    | ok a =>
      obtain ⟨ops', h1, h2⟩ := pushOperator_owed hle hp
      obtain ⟨a1, a2⟩ := a
      simp only at h1 h2
      subst h1
      rw [hp] at hs
      have hfp := (hE.op _ _ _ hf).1
      have hst : startArity f = 0 := by simp [startArity, hfp]
      simp only at hs
      split at hs
      · cases hi : popInsert f ⟨some f, startArity f, i⟩ a1 with
        | error e => rw [hi] at hs; cases hs
        | ok n =>
          rw [hi] at hs
          cases hs
          obtain ⟨-, -, rfl⟩ := popInsert_ok hi
          refine ⟨by simp [hpa], ?_⟩
          simp [hpa, hst]
          simpa using h2
      · cases hs
        refine ⟨by simp, ?_⟩
        simp [owed, hfp, hst]
        simpa using h2
  | none =>
    rw [hf] at hs
    simp only at hs
    cases hq : E.lookup tok .prefix with
    | none => rw [hq] at hs; exact stepLeaf_owed h hpa haw hs
    | some p =>
      rw [hq] at hs
      simp only at hs
      cases hp : pushOperator p i st.nodes st.ops with
      | error e => rw [hp] at hs; cases hs
      | ok a =>
        obtain ⟨ops', h1, h2⟩ := pushOperator_owed hle hp
        obtain ⟨a1, a2⟩ := a
        simp only at h1 h2
        subst h1
        rw [hp] at hs
        cases hs
        obtain ⟨q1, q2⟩ := hE.op _ _ _ hq
        have := startArity_prefix_le q2 (.inl q1)
        refine ⟨by simp [hpa], ?_⟩
        simp only [Bool.false_eq_true, if_false] at h2
        simp only [hpa, owed, Bool.false_and, Bool.false_eq_true, if_false]
        omega

theorem stepOperator_owed (hE : Usual E) {i : Nat} {tok : Str} {st st' : PState V} (h : Bounded st)
    (hpa : st.awaitParams = false) (haw : st.awaitInfix = true)
    (hs : stepOperator E i tok st = .ok st') : Bounded st' := by
  have hle := h.le
  rw [hpa, haw] at hle
  unfold stepOperator at hs
  cases hf : E.lookup tok .infix with
  | some o =>
    rw [hf] at hs
    simp only at hs
    cases hp : pushOperator o i st.nodes st.ops with
    | error e => rw [hp] at hs; cases hs
    | ok a =>
      obtain ⟨ops', h1, h2⟩ := pushOperator_owed hle hp
      obtain ⟨a1, a2⟩ := a
      simp only at h1 h2
      subst h1
      rw [hp] at hs
      cases hs
      obtain ⟨q1, q2⟩ := hE.op _ _ _ hf
      have := startArity_infix_le q2 q1
      refine ⟨by simp, ?_⟩
      simp only [if_true] at h2
      simp only [hpa, owed, Bool.false_and, Bool.false_eq_true, if_false]
      omega
  | none =>
    rw [hf] at hs
    simp only at hs
    cases hq : E.lookup tok .postfix with
    | none => rw [hq] at hs; cases hs
    | some o =>
      rw [hq] at hs
      simp only at hs
      cases hp : pushOperator o i st.nodes st.ops with
      | error e => rw [hp] at hs; cases hs
      | ok a =>
        obtain ⟨ops', h1, h2⟩ := pushOperator_owed hle hp
        obtain ⟨a1, a2⟩ := a
        simp only at h1 h2
        subst h1
        rw [hp] at hs
        obtain ⟨q1, q2⟩ := hE.op _ _ _ hq
        have hst := startArity_prefix_le q2 (.inr q1)
        simp only at hs
        simp only [if_true] at h2
        cases hi : popInsert o ⟨some o, startArity o, i⟩ a1 with
        | ok n =>
          rw [hi] at hs
          cases hs
          obtain ⟨-, q3, rfl⟩ := popInsert_ok hi
          simp only at q3
          refine ⟨by simp [hpa], ?_⟩
          simp only [hpa, List.length_cons, List.length_drop, if_true]
          omega
        | error e =>
          rw [hi] at hs
          cases e with
          | ub => cases hs
          | underflow =>
            cases hs
            refine ⟨by simp [hpa], ?_⟩
            simp only [hpa, List.length_nil, if_true]
            omega
          | wrongArity k =>
            cases hs
            refine ⟨by simp [hpa], ?_⟩
            simpa [hpa] using h2

theorem stepTok_owed (hE : Usual E) {i : Nat} {tok : Str} {st st' : PState V} (h : Bounded st)
    (hs : stepTok E strtod i tok st = .ok st') : Bounded st' := by
  unfold stepTok at hs
  split at hs
  · cases hs; exact h
  · cases hg : stepGlue E i tok st with
    | error e => rw [hg] at hs; cases hs
    | ok s =>
      rw [hg] at hs
      replace h := stepGlue_owed h hg
      simp only at hs
      unfold stepRest at hs
      split at hs
      · split at hs
        · cases hs
        · next haw =>
          cases hs
          have haw : s.awaitInfix = false := by simpa using haw
          refine ⟨by simp, ?_⟩
          have hle := h.le
          simp only [haw, owed] at hle ⊢
          cases hp : s.awaitParams with
          | true => rw [hp] at hle; exact hle
          | false => rw [hp] at hle; have := owed_mono s.ops; omega
      · split at hs
        · cases hs
        · next hpa =>
          have hpa : s.awaitParams = false := by simpa using hpa
          split at hs
          · exact stepClosing_owed h hpa hs
          · split at hs
            · exact stepDelimiter_owed h hpa hs
            · split at hs
              · next haw => exact stepOperator_owed hE h hpa haw hs
              · next haw => exact stepOperand_owed hE h hpa (by simpa using haw) hs

theorem runToks_owed (hE : Usual E) : ∀ {toks : List (Nat × Str)} {st st' : PState V}, Bounded st →
    runToks E strtod toks st = .ok st' → Bounded st' := by
  intro toks
  induction toks with
  | nil => intro st st' h hs; simp only [runToks, Except.ok.injEq] at hs; rw [← hs]; exact h
  | cons x toks ih =>
    intro st st' h hs
    obtain ⟨i, tok⟩ := x
    unfold runToks at hs
    cases hg : stepTok E strtod i tok st with
    | error e => rw [hg] at hs; cases hs
    | ok s => rw [hg] at hs; exact ih (stepTok_owed hE h hg) hs

/-- When all operators have been popped, at most one node is left. -/
theorem left_one (hE : Usual E) {toks : List (Nat × Str)} {st : PState V} {nodes : List (Tree V)}
    (hr : runToks E strtod toks PState.init = .ok st) (hpa : st.awaitParams = false)
    (haw : st.awaitInfix = true) (hp : popWhile (fun _ => true) st.nodes st.ops = .ok (nodes, [])) :
    nodes.length ≤ 1 := by
  have h := runToks_owed hE (st := PState.init) ⟨by simp [PState.init], by simp [PState.init, owed]⟩ hr
  have hle := h.le
  rw [hpa, haw] at hle
  have := popWhile_owed hle hp
  simp only [owed, if_true] at this
  omega

end Verif
