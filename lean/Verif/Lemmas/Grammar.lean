import Verif.Spec.Grammar
import Verif.Lemmas.ParserCount

/-!
# The parser accepts the expressions of the grammar
-/

namespace Verif
variable {V : Type}

theorem pops_iff (y x : Op) : pops y x = true ↔ Closes y x := by
  simp [pops, Closes]

/-- Shape of operators the parser relies on. -/
structure OpShape (E : Env) : Prop where
  fn : ∀ tok o, E.lookup tok .function = some o → o.placement = .function
  pre : ∀ tok o, E.lookup tok .prefix = some o → o.placement = .prefix ∧ o.arity = .fixed 1
  inf : ∀ tok o, E.lookup tok .infix = some o → o.placement = .infix ∧ o.arity = .fixed 2
  post : ∀ tok o, E.lookup tok .postfix = some o → o.placement = .postfix ∧ o.arity = .fixed 1

theorem WFEnv.shape {E : Env} (h : WFEnv E) : OpShape E :=
  ⟨fun _ _ ho => (h.op _ _ _ ho).1,
   fun _ _ ho => ⟨(h.op _ _ _ ho).1, (h.op _ _ _ ho).2.pre (h.op _ _ _ ho).1⟩,
   fun _ _ ho => ⟨(h.op _ _ _ ho).1, ((h.op _ _ _ ho).2.inf (h.op _ _ _ ho).1).1⟩,
   fun _ _ ho => ⟨(h.op _ _ _ ho).1, ((h.op _ _ _ ho).2.post (h.op _ _ _ ho).1).1⟩⟩

variable {E : Env} {strtod : Str → Option V}

theorem runToks_append (a b : List (Nat × Str)) (st : PState V) :
    runToks E strtod (a ++ b) st =
      match runToks E strtod a st with
      | .error e => .error e
      | .ok st' => runToks E strtod b st' := by
  induction a generalizing st with
  | nil => rfl
  | cons x a ih =>
    obtain ⟨i, tok⟩ := x
    simp only [List.cons_append, runToks]
    cases stepTok E strtod i tok st with
    | error e => rfl
    | ok st' => exact ih st'

/-- The top of the stack is neither a function nor closed by an operator of `le`. -/
def TopOk (le : List Op) : List OpData → Prop
  | [] => True
  | d :: _ => ∀ o, d.op = some o → o.placement ≠ .function ∧ ∀ y ∈ le, pops y o = false

theorem TopOk.popWhile_id {le : List Op} {ops : List OpData} (h : TopOk le ops) {y : Op} (hy : y ∈ le)
    (nodes : List (Tree V)) : popWhile (pops y) nodes ops = .ok (nodes, ops) := by
  cases ops with
  | nil => rfl
  | cons d ds =>
    unfold popWhile
    cases hd : d.op with
    | none => rfl
    | some o => simp [(h o hd).2 y hy]

theorem TopOk.sub {le le' : List Op} {ops : List OpData} (h : TopOk le ops) (hs : ∀ y ∈ le', y ∈ le) :
    TopOk le' ops := by
  cases ops with
  | nil => trivial
  | cons d ds => exact fun o ho => ⟨(h o ho).1, fun y hy => (h o ho).2 y (hs y hy)⟩

/-! Steps of the parser on each kind of token. -/

theorem stepGlue_operand (i : Nat) (tok : Str) (nodes : List (Tree V)) (ops : List OpData) (b : Bool) :
    stepGlue E i tok ⟨nodes, ops, false, b⟩ = .ok ⟨nodes, ops, false, b⟩ := by
  unfold stepGlue
  cases E.glue <;> simp

theorem space_open {p : Str} (h : isOpeningParen p = true) : headIs isSpace p = false := by
  simp only [isOpeningParen, Bool.or_eq_true, beq_iff_eq] at h
  rcases h with rfl | rfl <;> rfl

theorem space_close {p : Str} (h : isClosingParen p = true) :
    headIs isSpace p = false ∧ isOpeningParen p = false := by
  simp only [isClosingParen, Bool.or_eq_true, beq_iff_eq] at h
  rcases h with rfl | rfl <;> exact ⟨rfl, rfl⟩

theorem space_delim {p : Str} (h : isDelimiter p = true) :
    headIs isSpace p = false ∧ isOpeningParen p = false ∧ isClosingParen p = false := by
  simp only [isDelimiter, beq_iff_eq] at h
  subst h
  exact ⟨rfl, rfl, rfl⟩

theorem step_open {p : Str} (h : isOpeningParen p = true) (i : Nat) (nodes : List (Tree V))
    (ops : List OpData) (b : Bool) :
    stepTok E strtod i p ⟨nodes, ops, false, b⟩
      = .ok ⟨nodes, ⟨none, sizeMax, i⟩ :: ops, false, false⟩ := by
  simp [stepTok, space_open h, stepGlue_operand, stepRest, h]

theorem step_operand {tok : Str} (h : Plain tok) (i : Nat) (nodes : List (Tree V)) (ops : List OpData) :
    stepTok E strtod i tok ⟨nodes, ops, false, false⟩
      = stepOperand E strtod i tok ⟨nodes, ops, false, false⟩ := by
  obtain ⟨h1, h2, h3, h4⟩ := h
  simp [stepTok, stepGlue_operand, stepRest, h1, h2, h3, h4]

theorem step_operator {tok : Str} (h : Plain tok)
    (hc : (E.lookup tok .infix).isSome ∨ (E.lookup tok .postfix).isSome) (i : Nat)
    (nodes : List (Tree V)) (ops : List OpData) :
    stepTok E strtod i tok ⟨nodes, ops, true, false⟩
      = stepOperator E i tok ⟨nodes, ops, true, false⟩ := by
  obtain ⟨h1, h2, h3, h4⟩ := h
  have hg : stepGlue E i tok ⟨nodes, ops, true, false⟩ = .ok ⟨nodes, ops, true, false⟩ := by
    unfold stepGlue
    cases E.glue with
    | none => rfl
    | some g =>
      cases h5 : E.lookup tok .infix with
      | some _ => simp
      | none =>
        cases h6 : E.lookup tok .postfix with
        | some _ => simp
        | none => simp [h5, h6] at hc
  simp [stepTok, hg, stepRest, h1, h2, h3, h4]

theorem step_close {q : Str} (h : isClosingParen q = true) (i : Nat) (nodes : List (Tree V))
    (ops : List OpData) (b : Bool) :
    stepTok E strtod i q ⟨nodes, ops, b, false⟩ = stepClosing i ⟨nodes, ops, b, false⟩ := by
  have hg : stepGlue E i q ⟨nodes, ops, b, false⟩ = .ok ⟨nodes, ops, b, false⟩ := by
    unfold stepGlue
    cases E.glue with
    | none => rfl
    | some g => simp [h]
  simp [stepTok, (space_close h).1, hg, stepRest, (space_close h).2, h]

theorem step_delim {q : Str} (h : isDelimiter q = true) (i : Nat) (nodes : List (Tree V))
    (ops : List OpData) (b : Bool) :
    stepTok E strtod i q ⟨nodes, ops, b, false⟩ = stepDelimiter i ⟨nodes, ops, b, false⟩ := by
  have hg : stepGlue E i q ⟨nodes, ops, b, false⟩ = .ok ⟨nodes, ops, b, false⟩ := by
    unfold stepGlue
    cases E.glue with
    | none => rfl
    | some g => simp [h]
  obtain ⟨h1, h2, h3⟩ := space_delim h
  simp [stepTok, h1, hg, stepRest, h2, h3, h]

theorem popInsert_some {o : Op} {d : OpData} {args nodes : List (Tree V)}
    (ha : o.arity = .dyn ∨ o.arity = .fixed d.arity) (hs : o.placement = .function ∨ d.arity ≠ sizeMax)
    (hl : args.length = d.arity) :
    popInsert o d (args.reverse ++ nodes) = .ok (.op o args d.token :: nodes) := by
  unfold popInsert
  rw [if_neg, if_neg, if_neg]
  · have h1 : (args.reverse ++ nodes).take d.arity = args.reverse := by
      rw [← hl, ← List.length_reverse, List.take_left]
    have h2 : (args.reverse ++ nodes).drop d.arity = nodes := by
      rw [← hl, ← List.length_reverse, List.drop_left]
    rw [h1, h2, List.reverse_reverse]
  · simp; omega
  · rintro ⟨h1, h2⟩
    rcases hs with h | h
    · exact h2 h
    · exact h h1
  · rintro ⟨h1, h2⟩
    rcases ha with h | h
    · exact h1 h
    · exact h2 h

theorem one_ne_sizeMax : (1 : Nat) ≠ sizeMax := by decide
theorem two_ne_sizeMax : (2 : Nat) ≠ sizeMax := by decide

/-- What running the tokens of an expression amounts to. -/
def Runs (E : Env) (strtod : Str → Option V) (ts : List (Nat × Str)) (t : Tree V) (le rs : List Op) : Prop :=
  ∀ nodes ops, TopOk le ops → ∃ nodes' ops',
    runToks E strtod ts ⟨nodes, ops, false, false⟩ = .ok ⟨nodes', ops', true, false⟩ ∧
    ∀ p : Op → Bool, (∀ x ∈ rs, p x = true) → popWhile p nodes' ops' = popWhile p (t :: nodes) ops

/-- What running the tokens of an argument list amounts to. -/
def RunsArgs (E : Env) (strtod : Str → Option V) (ts : List (Nat × Str)) (as : List (Tree V)) : Prop :=
  ∀ nodes ops q f a k, f.placement = .function → ∃ nodes' ops',
    runToks E strtod ts ⟨nodes, ⟨none, sizeMax, q⟩ :: ⟨some f, a, k⟩ :: ops, false, false⟩
      = .ok ⟨nodes', ops', true, false⟩ ∧ 1 ≤ as.length ∧
    popWhile (fun _ => true) nodes' ops'
      = .ok (as.reverse ++ nodes, ⟨none, sizeMax, q⟩ :: ⟨some f, a + (as.length - 1), k⟩ :: ops)

theorem Runs.paren_top {ts : List (Nat × Str)} {t : Tree V} {le rs : List Op}
    (h : Runs E strtod ts t le rs) (nodes : List (Tree V)) (ops : List OpData) (q : Nat) :
    ∃ nodes' ops', runToks E strtod ts ⟨nodes, ⟨none, sizeMax, q⟩ :: ops, false, false⟩
        = .ok ⟨nodes', ops', true, false⟩ ∧
      popWhile (fun _ => true) nodes' ops' = .ok (t :: nodes, ⟨none, sizeMax, q⟩ :: ops) := by
  obtain ⟨nodes', ops', h1, h2⟩ := h nodes (⟨none, sizeMax, q⟩ :: ops) (by intro o ho; cases ho)
  exact ⟨nodes', ops', h1, by rw [h2 _ (by simp)]; rfl⟩

theorem expr_runs (hE : OpShape E) {ts : List (Nat × Str)} {t : Tree V} {le rs : List Op}
    (h : Expr E strtod ts t le rs) : Runs E strtod ts t le rs := by
  refine Expr.rec (motive_1 := fun ts t le rs _ => Runs E strtod ts t le rs)
    (motive_2 := fun ts as _ => RunsArgs E strtod ts as) ?number ?«variable» ?constant ?call0 ?call ?paren ?«prefix» ?«infix»
    ?«postfix» ?one ?more h
  case number =>
    intro i tok v hp hf hpre hs nodes ops _
    refine ⟨.const v i :: nodes, ops, ?_, fun _ _ => rfl⟩
    simp [runToks, step_operand hp, stepOperand, hf, hpre, stepLeaf, hs]
  case «variable» =>
    intro i tok hp hf hpre hs h1 h2 h3 nodes ops _
    refine ⟨.var tok 0 i :: nodes, ops, ?_, fun _ _ => rfl⟩
    simp [runToks, step_operand hp, stepOperand, hf, hpre, stepLeaf, hs, h1, h2, h3]
  case constant =>
    intro i tok f hp hf ha nodes ops _
    have hfp := hE.fn _ _ hf
    refine ⟨.op f [] i :: nodes, ops, ?_, fun _ _ => rfl⟩
    have := popInsert_some (o := f) (d := ⟨some f, 0, i⟩) (args := []) (nodes := nodes)
      (.inr ha) (.inl hfp) rfl
    simp only [List.reverse_nil, List.nil_append] at this
    simp [runToks, step_operand hp, stepOperand, hf, ha, pushOperator, hfp, startArity, this]
  case call0 =>
    intro i tok f j p k q hp hf ha ho hc nodes ops _
    have hfp := hE.fn _ _ hf
    refine ⟨nodes, ⟨some f, 0, i⟩ :: ops, ?_, ?_⟩
    · simp [runToks, step_operand hp, stepOperand, hf, ha, pushOperator, hfp, startArity, step_open ho,
        step_close hc, stepClosing, popWhile]
    · intro pr hpr
      have := popInsert_some (o := f) (d := ⟨some f, 0, i⟩) (args := []) (nodes := nodes)
        (.inl ha) (.inl hfp) rfl
      simp only [List.reverse_nil, List.nil_append] at this
      rw [popWhile]
      simp [hpr f (by simp), this]
  case call =>
    intro i tok f j p k q ts as hp hf ha ho hargs hc ih nodes ops _
    have hfp := hE.fn _ _ hf
    obtain ⟨nodes', ops', h1, h2, h3⟩ := ih nodes ops j f 0 i hfp
    have hne : f.arity ≠ .fixed 0 := by
      rintro h0
      rcases ha with h | h
      · rw [h] at h0; cases h0
      · rw [h] at h0; injection h0 with h0; omega
    refine ⟨as.reverse ++ nodes, ⟨some f, as.length, i⟩ :: ops, ?_, ?_⟩
    · have hlen : as.length - 1 + 1 = as.length := by omega
      simp [runToks, runToks_append, step_operand hp, stepOperand, hf, hne, pushOperator, hfp,
        startArity, step_open ho, h1, step_close hc, stepClosing, h3, hlen]
    · intro pr hpr
      have := popInsert_some (o := f) (d := ⟨some f, as.length, i⟩) (args := as) (nodes := nodes)
        ha (.inl hfp) rfl
      rw [popWhile]
      simp [hpr f (by simp), this]
  case paren =>
    intro j p k q ts t le rs ho _ hc ih nodes ops htop
    obtain ⟨nodes', ops', h1, h3⟩ := ih.paren_top nodes ops j
    refine ⟨t :: nodes, ops, ?_, fun _ _ => rfl⟩
    have hcl : stepClosing k ⟨nodes', ops', true, false⟩ = .ok ⟨t :: nodes, ops, true, false⟩ := by
      simp only [stepClosing, h3, if_true]
      cases ops with
      | nil => rfl
      | cons d ds =>
        obtain ⟨op, a, c⟩ := d
        cases op with
        | none => rfl
        | some o =>
          have := (htop o rfl).1
          simp [this]
    simp [runToks, runToks_append, step_open ho, h1, step_close hc, hcl]
  case «prefix» =>
    intro i tok o ts t le rs hp hf hpre _ hle ih nodes ops _
    obtain ⟨hpl, har⟩ := hE.pre _ _ hpre
    have hsa : startArity o = 1 := by simp [startArity, hpl, har]
    obtain ⟨nodes', ops', h1, h2⟩ := ih nodes (⟨some o, 1, i⟩ :: ops) (by
      intro o' ho'
      cases ho'
      refine ⟨by rw [hpl]; simp, fun y hy => ?_⟩
      have := hle y hy
      rw [← pops_iff] at this
      simpa using this)
    refine ⟨nodes', ops', ?_, ?_⟩
    · simp [runToks, step_operand hp, stepOperand, hf, hpre, pushOperator, hpl, hsa, h1]
    · intro pr hpr
      rw [h2 pr (fun x hx => hpr x (by simp [hx]))]
      have := popInsert_some (o := o) (d := ⟨some o, 1, i⟩) (args := [t]) (nodes := nodes)
        (.inr har) (.inr one_ne_sizeMax) rfl
      simp only [List.reverse_cons, List.reverse_nil, List.nil_append, List.cons_append] at this
      rw [popWhile]
      simp [hpr o (by simp), this]
  case «infix» =>
    intro i tok o ta a lea rsa tb b leb rsb hp hinf _ hrs _ hle iha ihb nodes ops htop
    obtain ⟨hpl, har⟩ := hE.inf _ _ hinf
    have hsa : startArity o = 2 := by simp [startArity, hpl, har]
    obtain ⟨nodes1, ops1, h1, h2⟩ := iha nodes ops (htop.sub (by simp_all))
    have hpop : popWhile (pops o) nodes1 ops1 = .ok (a :: nodes, ops) := by
      rw [h2 _ (fun x hx => (pops_iff _ _).2 (hrs x hx))]
      exact htop.popWhile_id (by simp) _
    obtain ⟨nodes', ops', h3, h4⟩ := ihb (a :: nodes) (⟨some o, 2, i⟩ :: ops) (by
      intro o' ho'
      cases ho'
      refine ⟨by rw [hpl]; simp, fun y hy => ?_⟩
      have := hle y hy
      rw [← pops_iff] at this
      simpa using this)
    refine ⟨nodes', ops', ?_, ?_⟩
    · rw [runToks_append, h1]
      simp only [runToks]
      rw [step_operator hp (.inl (by simp [hinf]))]
      simp [stepOperator, hinf, pushOperator, hpl, hsa, hpop, h3]
    · intro pr hpr
      rw [h4 pr (fun x hx => hpr x (by simp [hx]))]
      have := popInsert_some (o := o) (d := ⟨some o, 2, i⟩) (args := [a, b]) (nodes := nodes)
        (.inr har) (.inr two_ne_sizeMax) rfl
      simp only [List.reverse_cons, List.reverse_nil, List.nil_append, List.cons_append] at this
      rw [popWhile]
      simp [hpr o (by simp), this]
  case «postfix» =>
    intro i tok o ta a lea rsa hp hinf hpost _ hrs iha nodes ops htop
    obtain ⟨hpl, har⟩ := hE.post _ _ hpost
    have hsa : startArity o = 1 := by simp [startArity, hpl, har]
    obtain ⟨nodes1, ops1, h1, h2⟩ := iha nodes ops (htop.sub (by simp_all))
    have hpop : popWhile (pops o) nodes1 ops1 = .ok (a :: nodes, ops) := by
      rw [h2 _ (fun x hx => (pops_iff _ _).2 (hrs x hx))]
      exact htop.popWhile_id (by simp) _
    refine ⟨.op o [a] i :: nodes, ops, ?_, fun _ _ => rfl⟩
    have := popInsert_some (o := o) (d := ⟨some o, 1, i⟩) (args := [a]) (nodes := nodes)
      (.inr har) (.inr one_ne_sizeMax) rfl
    simp only [List.reverse_cons, List.reverse_nil, List.nil_append, List.cons_append] at this
    rw [runToks_append, h1]
    simp only [runToks]
    rw [step_operator hp (.inr (by simp [hpost]))]
    simp [stepOperator, hinf, hpost, pushOperator, hpl, hsa, hpop, this]
  case one =>
    intro ts t le rs _ ih nodes ops q f a k hf
    obtain ⟨nodes', ops', h1, h3⟩ := ih.paren_top nodes (⟨some f, a, k⟩ :: ops) q
    exact ⟨nodes', ops', h1, by simp, by simpa using h3⟩
  case more =>
    intro ts t le rs i d ts' as _ hd hargs ih iha nodes ops q f a k hf
    obtain ⟨nodes1, ops1, h1, h3⟩ := ih.paren_top nodes (⟨some f, a, k⟩ :: ops) q
    obtain ⟨nodes', ops', h4, h5, h6⟩ := iha (t :: nodes) ops q f (a + 1) k hf
    refine ⟨nodes', ops', ?_, by simp, ?_⟩
    · rw [runToks_append, h1]
      simp only [runToks]
      rw [step_delim hd]
      simp [stepDelimiter, h3, hf, h4]
    · rw [h6]
      simp only [List.reverse_cons, List.append_assoc, List.cons_append, List.nil_append,
        List.length_cons, Except.ok.injEq, Prod.mk.injEq, List.cons.injEq, OpData.mk.injEq, true_and,
        and_true]
      omega

/-- Every expression of the grammar is accepted with its tree. -/
theorem expr_parse (hE : OpShape E) {ts : List (Nat × Str)} {t : Tree V} {le rs : List Op}
    (h : Expr E strtod ts t le rs) (n : Nat) : parseIdx E strtod ts n = .ok t := by
  obtain ⟨nodes', ops', h1, h2⟩ := expr_runs hE h [] [] trivial
  unfold parseIdx PState.init
  rw [h1]
  simp [finish, h2 (fun _ => true) (by simp), popWhile]

end Verif
