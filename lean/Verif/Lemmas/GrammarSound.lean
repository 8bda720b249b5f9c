import Verif.Lemmas.Grammar

/-!
# The parser accepts only expressions of the grammar
-/

namespace Verif
variable {V : Type} {E : Env} {strtod : Str → Option V}

theorem Args.pos {ts : List (Nat × Str)} {as : List (Tree V)} (h : Args E strtod ts as) :
    1 ≤ as.length := by
  cases h <;> simp

theorem Args.snoc {ts : List (Nat × Str)} {as : List (Tree V)} (h : Args E strtod ts as) :
    ∀ {i d te t le rs}, isDelimiter d = true → Expr E strtod te t le rs →
      Args E strtod (ts ++ (i, d) :: te) (as ++ [t]) := by
  refine Args.rec (motive_1 := fun _ _ _ _ _ => True)
    (motive_2 := fun ts as _ => ∀ {i d te t le rs}, isDelimiter d = true → Expr E strtod te t le rs →
      Args E strtod (ts ++ (i, d) :: te) (as ++ [t])) ?_ ?_ ?_ ?_ ?_ ?_ ?_ ?_ ?_ ?_ ?_ h
  case refine_10 =>
    intro ts t le rs he _ i d te t' le' rs' hd he'
    exact .more he hd (.one he')
  case refine_11 =>
    intro ts t le rs i d ts' as he hd _ _ ih i' d' te t' le' rs' hd' he'
    have := Args.more (i := i) he hd (ih (i := i') hd' he')
    simpa using this
  all_goals intros; trivial

/-- State in which an operand is expected, after the tokens `ts`. -/
inductive Pre (E : Env) (strtod : Str → Option V) :
    List (Nat × Str) → List (Tree V) → List OpData → Prop where
  | nil : Pre E strtod [] [] []
  | paren {ts ns ops j p} : Pre E strtod ts ns ops → isOpeningParen p = true →
      Pre E strtod (ts ++ [(j, p)]) ns (⟨none, sizeMax, j⟩ :: ops)
  | call {ts ns ops i tok f j p} : Pre E strtod ts ns ops → Plain tok →
      E.lookup tok .function = some f → f.arity ≠ .fixed 0 → isOpeningParen p = true →
      Pre E strtod (ts ++ [(i, tok), (j, p)]) ns (⟨none, sizeMax, j⟩ :: ⟨some f, 0, i⟩ :: ops)
  | args {ts ns ops i tok f j p ta as k d} : Pre E strtod ts ns ops → Plain tok →
      E.lookup tok .function = some f → f.arity ≠ .fixed 0 → isOpeningParen p = true →
      Args E strtod ta as → isDelimiter d = true →
      Pre E strtod (ts ++ (i, tok) :: (j, p) :: ta ++ [(k, d)]) (as.reverse ++ ns)
        (⟨none, sizeMax, j⟩ :: ⟨some f, as.length, i⟩ :: ops)
  | prefix {ts ns ops i tok o} : Pre E strtod ts ns ops → Plain tok →
      E.lookup tok .function = none → E.lookup tok .prefix = some o →
      Pre E strtod (ts ++ [(i, tok)]) ns (⟨some o, 1, i⟩ :: ops)
  | infix {ts ns ops i tok o ta a le rs} : Pre E strtod ts ns ops → Plain tok →
      E.lookup tok .infix = some o → Expr E strtod ta a le rs → (∀ x ∈ rs, Closes o x) →
      TopOk (le ++ [o]) ops →
      Pre E strtod (ts ++ ta ++ [(i, tok)]) (a :: ns) (⟨some o, 2, i⟩ :: ops)

/-- State after an operand. -/
inductive Post (E : Env) (strtod : Str → Option V) :
    List (Nat × Str) → List (Tree V) → List OpData → List Op → Prop where
  | mk {ts ns ops ta a le rs} : Pre E strtod ts ns ops → Expr E strtod ta a le rs → TopOk le ops →
      Post E strtod (ts ++ ta) (a :: ns) ops rs

/-- State after a function call whose operator is still on the stack. -/
inductive PostFn (E : Env) (strtod : Str → Option V) :
    List (Nat × Str) → List (Tree V) → List OpData → Prop where
  | mk {ts ns ops i tok f j p k q ta as} : Pre E strtod ts ns ops → Plain tok →
      E.lookup tok .function = some f → f.arity ≠ .fixed 0 → isOpeningParen p = true →
      isClosingParen q = true → (ta = [] ∧ as = []) ∨ Args E strtod ta as →
      PostFn E strtod (ts ++ (i, tok) :: (j, p) :: ta ++ [(k, q)]) (as.reverse ++ ns)
        (⟨some f, as.length, i⟩ :: ops)

theorem Pre.top (hE : OpShape E) {ts : List (Nat × Str)} {ns : List (Tree V)} {ops : List OpData}
    (h : Pre E strtod ts ns ops) : TopOk [] ops := by
  cases h with
  | nil => trivial
  | paren => intro o ho; cases ho
  | call => intro o ho; cases ho
  | args => intro o ho; cases ho
  | «prefix» _ _ _ hl =>
    intro o ho; cases ho
    exact ⟨by rw [(hE.pre _ _ hl).1]; simp, by simp⟩
  | «infix» _ _ hl =>
    intro o ho; cases ho
    exact ⟨by rw [(hE.inf _ _ hl).1]; simp, by simp⟩

theorem popInsert_args {o : Op} {d : OpData} {args nodes r : List (Tree V)}
    (hl : args.length = d.arity) (h : popInsert o d (args.reverse ++ nodes) = .ok r) :
    (o.arity = .dyn ∨ o.arity = .fixed d.arity) ∧ r = .op o args d.token :: nodes := by
  obtain ⟨h1, h2, rfl⟩ := popInsert_ok h
  have h3 : (args.reverse ++ nodes).take d.arity = args.reverse := by
    rw [← hl, ← List.length_reverse, List.take_left]
  have h4 : (args.reverse ++ nodes).drop d.arity = nodes := by
    rw [← hl, ← List.length_reverse, List.drop_left]
  rw [h3, h4, List.reverse_reverse]
  exact ⟨h1, rfl⟩

/-- Popping the top operator of a state after an operand. -/
theorem Post.pop (hE : OpShape E) {ts : List (Nat × Str)} {ns ns' : List (Tree V)} {d : OpData}
    {ops : List OpData} {rs : List Op} {o : Op} (h : Post E strtod ts ns (d :: ops) rs)
    (hd : d.op = some o) (hp : popInsert o d ns = .ok ns') : Post E strtod ts ns' ops (o :: rs) := by
  obtain ⟨hpre, he, htop⟩ := h
  rename_i ts0 ns0 ta a le
  cases hpre with
  | paren => cases hd
  | call => cases hd
  | args => cases hd
  | «prefix» hpre hpl hf hl =>
    cases hd
    rename_i ts1 i1 tok1
    have := popInsert_args (args := [a]) rfl hp
    obtain ⟨-, rfl⟩ := this
    have hx := Expr.prefix (i := i1) hpl hf hl he (fun y hy hc => by
      have := (htop _ rfl).2 y hy
      rw [(pops_iff _ _).2 hc] at this
      cases this)
    have := Post.mk hpre hx (hpre.top hE)
    rwa [List.append_assoc]
  | «infix» hpre hpl hl hea hcl htop' =>
    cases hd
    rename_i ts1 ns1 i tok tb b leb rsb
    have := popInsert_args (args := [b, a]) rfl hp
    obtain ⟨-, rfl⟩ := this
    have hx := Expr.infix (i := i) hpl hl hea hcl he (fun y hy hc => by
      have := (htop _ rfl).2 y hy
      rw [(pops_iff _ _).2 hc] at this
      cases this)
    have := Post.mk hpre hx htop'
    simpa using this

theorem PostFn.pop (hE : OpShape E) {ts : List (Nat × Str)} {ns ns' : List (Tree V)} {d : OpData}
    {ops : List OpData} {o : Op} (h : PostFn E strtod ts ns (d :: ops))
    (hd : d.op = some o) (hp : popInsert o d ns = .ok ns') : Post E strtod ts ns' ops [o] := by
  cases h with
  | mk hpre hpl hl hne ho hc ha =>
    cases hd
    rename_i ts0 ns0 i tok j p k q ta as
    obtain ⟨har, rfl⟩ := popInsert_args rfl hp
    rcases ha with ⟨rfl, rfl⟩ | ha
    · have hdyn : o.arity = .dyn := by
        rcases har with h | h
        · exact h
        · exact absurd h hne
      have hx := Expr.call0 (i := i) (j := j) (k := k) (strtod := strtod) hpl hl hdyn ho hc
      have := Post.mk hpre hx (hpre.top hE)
      simpa using this
    · have hx := Expr.call (i := i) (j := j) (k := k) hpl hl har ho ha hc
      have := Post.mk hpre hx (hpre.top hE)
      simpa using this

/-- The top of the stack is not popped by `p`. -/
def Stuck (p : Op → Bool) : List OpData → Prop
  | [] => True
  | d :: _ => ∀ o, d.op = some o → p o = false

theorem Post.popWhile (hE : OpShape E) {p : Op → Bool} {ts : List (Nat × Str)} {ns ns' : List (Tree V)}
    {ops ops' : List OpData} {rs : List Op} (h : Post E strtod ts ns ops rs)
    (hrs : ∀ x ∈ rs, p x = true) (hp : popWhile p ns ops = .ok (ns', ops')) :
    ∃ rs', Post E strtod ts ns' ops' rs' ∧ (∀ x ∈ rs', p x = true) ∧ Stuck p ops' := by
  induction ops generalizing ns rs with
  | nil =>
    simp only [Verif.popWhile, Except.ok.injEq, Prod.mk.injEq] at hp
    obtain ⟨rfl, rfl⟩ := hp
    exact ⟨rs, h, hrs, trivial⟩
  | cons d ds ih =>
    rw [Verif.popWhile] at hp
    cases hd : d.op with
    | none =>
      simp only [hd, Except.ok.injEq, Prod.mk.injEq] at hp
      obtain ⟨rfl, rfl⟩ := hp
      exact ⟨rs, h, hrs, fun o ho => by rw [hd] at ho; cases ho⟩
    | some o =>
      simp only [hd] at hp
      cases hpo : p o with
      | false =>
        simp only [hpo, Bool.false_eq_true, if_false, Except.ok.injEq, Prod.mk.injEq] at hp
        obtain ⟨rfl, rfl⟩ := hp
        refine ⟨rs, h, hrs, fun o' ho' => ?_⟩
        rw [hd] at ho'
        cases ho'
        exact hpo
      | true =>
        simp only [hpo, if_true] at hp
        cases hpi : popInsert o d ns with
        | error e => simp [hpi] at hp
        | ok ns1 =>
          simp only [hpi] at hp
          exact ih (h.pop hE hd hpi) (by simpa [hpo] using hrs) hp

/-- State after an operand as the token loop leaves it. -/
def PostAny (E : Env) (strtod : Str → Option V) (ts : List (Nat × Str)) (ns : List (Tree V))
    (ops : List OpData) : Prop :=
  Post E strtod ts ns ops [] ∨ PostFn E strtod ts ns ops

theorem PostAny.popWhile (hE : OpShape E) {p : Op → Bool}
    (hfn : ∀ tok f, E.lookup tok .function = some f → p f = true)
    {ts : List (Nat × Str)} {ns ns' : List (Tree V)}
    {ops ops' : List OpData} (h : PostAny E strtod ts ns ops)
    (hp : popWhile p ns ops = .ok (ns', ops')) :
    ∃ rs', Post E strtod ts ns' ops' rs' ∧ (∀ x ∈ rs', p x = true) ∧ Stuck p ops' := by
  rcases h with h | h
  · exact h.popWhile hE (by simp) hp
  · cases ops with
    | nil => nomatch h
    | cons d ds =>
      have hd : ∃ o tok, d.op = some o ∧ E.lookup tok .function = some o := by
        cases h with
        | mk hpre hpl hl hne ho hc ha => exact ⟨_, _, rfl, hl⟩
      obtain ⟨o, tok, hd, hl⟩ := hd
      rw [Verif.popWhile] at hp
      simp only [hd, hfn _ _ hl, if_true] at hp
      cases hpi : popInsert o d ns with
      | error e => simp [hpi] at hp
      | ok ns1 =>
        simp only [hpi] at hp
        exact (h.pop hE hd hpi).popWhile hE (by simpa using hfn _ _ hl) hp

/-- Invariant of the token loop. -/
def GInv (E : Env) (strtod : Str → Option V) (ts : List (Nat × Str)) (st : PState V) : Prop :=
  match st.awaitInfix, st.awaitParams with
  | false, false => Pre E strtod ts st.nodes st.ops
  | false, true => ∃ ts0 i tok f ops, ts = ts0 ++ [(i, tok)] ∧ Plain tok ∧
      E.lookup tok .function = some f ∧ f.arity ≠ .fixed 0 ∧ Pre E strtod ts0 st.nodes ops ∧
      st.ops = ⟨some f, 0, i⟩ :: ops
  | true, false => PostAny E strtod ts st.nodes st.ops
  | true, true => False

theorem Pre.popTrue_paren {ts : List (Nat × Str)} {ns : List (Tree V)} {ops : List OpData}
    (h : Pre E strtod ts ns ops)
    (hl : ∀ x, ts.getLast? = some x → E.lookup x.2 .infix = none ∧ E.lookup x.2 .prefix = none) :
    Verif.popWhile (fun _ => true) ns ops = .ok (ns, ops) := by
  cases h with
  | nil => rfl
  | paren => rfl
  | call => rfl
  | args => rfl
  | «prefix» _ _ _ h2 =>
    have := (hl _ (List.getLast?_concat ..)).2
    rw [h2] at this
    cases this
  | «infix» _ _ h2 =>
    have := (hl _ (List.getLast?_concat ..)).1
    rw [h2] at this
    cases this

theorem stepClosing_sound (hE : OpShape E) {ts : List (Nat × Str)} {i : Nat} {q : Str}
    (hq : isClosingParen q = true) {st st' : PState V}
    (h : GInv E strtod ts st) (hpar : st.awaitParams = false)
    (hl : ∀ x, ts.getLast? = some x → E.lookup x.2 .infix = none ∧ E.lookup x.2 .prefix = none)
    (hs : stepClosing i st = .ok st') : GInv E strtod (ts ++ [(i, q)]) st' := by
  obtain ⟨ns, ops, aw, ap⟩ := st
  subst hpar
  cases aw with
  | false =>
    have h : Pre E strtod ts ns ops := h
    simp only [stepClosing, h.popTrue_paren hl, Bool.false_eq_true, if_false] at hs
    cases h with
    | nil => cases hs
    | «prefix» _ _ _ h2 =>
      have := (hl _ (List.getLast?_concat ..)).2
      rw [h2] at this
      cases this
    | «infix» _ _ h2 =>
      have := (hl _ (List.getLast?_concat ..)).1
      rw [h2] at this
      cases this
    | @paren ts1 _ ops _ _ hpre =>
      have ht := hpre.top hE
      cases ops with
      | nil => cases hs
      | cons d ds =>
        obtain ⟨op, a, k⟩ := d
        cases op with
        | none => cases hs
        | some o =>
          have := (ht o rfl).1
          simp [this] at hs
    | args _ _ _ _ _ ha =>
      have := ha.pos
      simp only [ne_eq] at hs
      rw [if_pos (.inr (by omega))] at hs
      cases hs
    | @call ts1 _ ops1 i1 tok1 f1 j1 p1 hpre hpl hl' hne ho =>
      simp only [ne_eq, hE.fn _ _ hl', not_true_eq_false, or_self, if_false, Except.ok.injEq] at hs
      subst hs
      refine .inr ?_
      have := PostFn.mk (i := i1) (j := j1) (k := i) (ta := []) (as := []) (strtod := strtod) hpre hpl hl' hne ho hq (.inl ⟨rfl, rfl⟩)
      simpa using this
  | true =>
    have h : PostAny E strtod ts ns ops := h
    simp only [stepClosing] at hs
    cases hp : popWhile (fun _ => true) ns ops with
    | error e => simp [hp] at hs
    | ok r =>
      obtain ⟨ns', ops'⟩ := r
      obtain ⟨rs, hpost, -, hst⟩ := h.popWhile hE (by simp) hp
      simp only [hp, if_true] at hs
      cases ops' with
      | nil => cases hs
      | cons d ops' =>
        simp only at hs
        obtain ⟨hpre, he, htop⟩ := hpost
        rename_i nsr _ a _ _
        cases hpre with
        | «prefix» => exact absurd (hst _ rfl) (by simp)
        | «infix» => exact absurd (hst _ rfl) (by simp)
        | @paren ts1 _ _ j p hpre ho =>
          have hst' : st' = ⟨a :: nsr, ops', true, false⟩ := by
            have ht := hpre.top hE
            cases ops' with
            | nil => simpa using hs.symm
            | cons d ds =>
              obtain ⟨op, a, k⟩ := d
              cases op with
              | none => simpa using hs.symm
              | some o =>
                have := (ht o rfl).1
                simpa [this] using hs.symm
          subst hst'
          refine .inl ?_
          have := Post.mk hpre (Expr.paren (j := j) (k := i) ho he hq) (hpre.top hE)
          simpa using this
        | @call ts1 _ ops1 i1 tok1 f1 j1 p1 hpre hpl hl' hne ho =>
          simp only [hE.fn _ _ hl', if_true, Except.ok.injEq] at hs
          subst hs
          refine .inr ?_
          have := PostFn.mk (i := i1) (j := j1) (k := i) hpre hpl hl' hne ho hq (.inr (.one he))
          simpa using this
        | @args ts1 _ ops1 i1 tok1 f1 j1 p1 ta1 as1 k1 d1 hpre hpl hl' hne ho ha hd =>
          simp only [hE.fn _ _ hl', if_true, Except.ok.injEq] at hs
          subst hs
          refine .inr ?_
          have := PostFn.mk (i := i1) (j := j1) (k := i) hpre hpl hl' hne ho hq (.inr (ha.snoc (i := k1) hd he))
          simpa using this

theorem stepDelimiter_sound (hE : OpShape E) {ts : List (Nat × Str)} {i : Nat} {q : Str}
    (hq : isDelimiter q = true) {st st' : PState V}
    (h : GInv E strtod ts st) (hpar : st.awaitParams = false)
    (hs : stepDelimiter i st = .ok st') : GInv E strtod (ts ++ [(i, q)]) st' := by
  obtain ⟨ns, ops, aw, ap⟩ := st
  subst hpar
  cases aw with
  | false => cases hs
  | true =>
    have h : PostAny E strtod ts ns ops := h
    simp only [stepDelimiter] at hs
    cases hp : popWhile (fun _ => true) ns ops with
    | error e => simp [hp] at hs
    | ok r =>
      obtain ⟨ns', ops'⟩ := r
      obtain ⟨rs, hpost, -, hst⟩ := h.popWhile hE (by simp) hp
      simp only [hp, Bool.not_true, Bool.false_eq_true, if_false] at hs
      cases ops' with
      | nil => cases hs
      | cons d ops' =>
        obtain ⟨hpre, he, htop⟩ := hpost
        cases hpre with
        | «prefix» => exact absurd (hst _ rfl) (by simp)
        | «infix» => exact absurd (hst _ rfl) (by simp)
        | paren hpre ho =>
          have ht := hpre.top hE
          cases ops' with
          | nil => cases hs
          | cons d ds =>
            obtain ⟨op, a, k⟩ := d
            cases op with
            | none => cases hs
            | some o =>
              have := (ht o rfl).1
              simp [this] at hs
        | @call ts1 _ ops1 i1 tok1 f1 j1 p1 hpre hpl hl' hne ho =>
          simp only [hE.fn _ _ hl', if_true, Except.ok.injEq] at hs
          subst hs
          have := Pre.args (i := i1) (j := j1) (k := i) hpre hpl hl' hne ho (.one he) hq
          show Pre _ _ _ _ _
          simpa using this
        | @args ts1 _ ops1 i1 tok1 f1 j1 p1 ta1 as1 k1 d1 hpre hpl hl' hne ho ha hd =>
          simp only [hE.fn _ _ hl', if_true, Except.ok.injEq] at hs
          subst hs
          have := Pre.args (i := i1) (j := j1) (k := i) hpre hpl hl' hne ho (ha.snoc (i := k1) hd he) hq
          show Pre _ _ _ _ _
          simpa using this

theorem stepOperand_sound (hE : OpShape E) {ts : List (Nat × Str)} {i : Nat} {tok : Str}
    (ht : Plain tok) {ns : List (Tree V)} {ops : List OpData} {st' : PState V}
    (h : Pre E strtod ts ns ops)
    (hs : stepOperand E strtod i tok ⟨ns, ops, false, false⟩ = .ok st') :
    GInv E strtod (ts ++ [(i, tok)]) st' := by
  unfold stepOperand at hs
  cases hf : E.lookup tok .function with
  | some f =>
    have hpl := hE.fn _ _ hf
    simp only [hf, pushOperator, hpl, reduceCtorEq, or_self, if_false, startArity, if_true] at hs
    by_cases ha : f.arity = .fixed 0
    · simp only [ha, if_true] at hs
      cases hp : popInsert f ⟨some f, 0, i⟩ ns with
      | error e => simp [hp] at hs
      | ok ns' =>
        simp only [hp, Except.ok.injEq] at hs
        obtain ⟨-, rfl⟩ := popInsert_args (args := []) rfl hp
        subst hs
        exact .inl (.mk h (.constant ht hf ha) (h.top hE))
    · simp only [ha, if_false, Except.ok.injEq] at hs
      subst hs
      exact ⟨ts, i, tok, f, ops, rfl, ht, hf, ha, h, rfl⟩
  | none =>
    simp only [hf] at hs
    cases hp : E.lookup tok .prefix with
    | some o =>
      obtain ⟨hpl, har⟩ := hE.pre _ _ hp
      simp only [hp, pushOperator, hpl, reduceCtorEq, or_self, if_false, startArity, har,
        Except.ok.injEq] at hs
      subst hs
      exact Pre.prefix h ht hf hp
    | none =>
      simp only [hp, stepLeaf] at hs
      cases hd : strtod tok with
      | some v =>
        simp only [hd, Except.ok.injEq] at hs
        subst hs
        exact .inl (.mk h (.number ht hf hp hd) (h.top hE))
      | none =>
        simp only [hd] at hs
        cases h1 : E.lookup tok .infix with
        | some _ => simp [h1] at hs
        | none =>
          cases h2 : E.lookup tok .postfix with
          | some _ => simp [h2] at hs
          | none =>
            cases h3 : headIs isLetter tok with
            | false => simp [h1, h2, h3] at hs
            | true =>
              simp only [h1, h2, h3, Option.isSome_none, Bool.or_self, Bool.false_eq_true, if_false,
                Bool.not_true, Except.ok.injEq] at hs
              subst hs
              exact .inl (.mk h (.variable ht hf hp hd h1 h2 h3) (h.top hE))

theorem TopOk.of_stuck {le : List Op} {o : Op} {ops : List OpData} (h : TopOk le ops)
    (hs : Stuck (pops o) ops) : TopOk (le ++ [o]) ops := by
  cases ops with
  | nil => trivial
  | cons d ds =>
    intro x hx
    refine ⟨(h x hx).1, fun y hy => ?_⟩
    simp only [List.mem_append, List.mem_singleton] at hy
    rcases hy with hy | rfl
    · exact (h x hx).2 y hy
    · exact hs x hx

theorem stepOperator_sound (hE : WFEnv E) {ts : List (Nat × Str)} {i : Nat} {tok : Str}
    (ht : Plain tok) {ns : List (Tree V)} {ops : List OpData} {st' : PState V}
    (h : PostAny E strtod ts ns ops)
    (hs : stepOperator E i tok ⟨ns, ops, true, false⟩ = .ok st') :
    GInv E strtod (ts ++ [(i, tok)]) st' := by
  unfold stepOperator at hs
  have hS := hE.shape
  cases hi : E.lookup tok .infix with
  | some o =>
    obtain ⟨hpl, har⟩ := hS.inf _ _ hi
    simp only [hi, pushOperator, hpl, true_or, if_true] at hs
    cases hp : popWhile (pops o) ns ops with
    | error e => simp [hp] at hs
    | ok r =>
      obtain ⟨ns', ops'⟩ := r
      simp only [hp, startArity, hpl, reduceCtorEq, if_false, har, Except.ok.injEq] at hs
      subst hs
      obtain ⟨rs, hpost, hrs, hst⟩ := h.popWhile hS
        (fun tok f hf => pops_function ((hE.op _ _ _ hi).2) (.inl hpl) f (hS.fn _ _ hf) ((hE.op _ _ _ hf).2.fn (hS.fn _ _ hf))) hp
      obtain ⟨hpre, he, htop⟩ := hpost
      exact Pre.infix hpre ht hi he (fun x hx => (pops_iff _ _).1 (hrs x hx)) (htop.of_stuck hst)
  | none =>
    simp only [hi] at hs
    cases hpo : E.lookup tok .postfix with
    | none => simp [hpo] at hs
    | some o =>
      obtain ⟨hpl, har⟩ := hS.post _ _ hpo
      simp only [hpo, pushOperator, hpl, or_true, if_true] at hs
      cases hp : popWhile (pops o) ns ops with
      | error e => simp [hp] at hs
      | ok r =>
        obtain ⟨ns', ops'⟩ := r
        obtain ⟨rs, hpost, hrs, hst⟩ := h.popWhile hS
          (fun tok f hf => pops_function ((hE.op _ _ _ hpo).2) (.inr hpl) f (hS.fn _ _ hf) ((hE.op _ _ _ hf).2.fn (hS.fn _ _ hf))) hp
        obtain ⟨hpre, he, htop⟩ := hpost
        rename_i ts0 ns0 ta a le
        have hpi := popInsert_some (o := o) (d := ⟨some o, 1, i⟩) (args := [a]) (nodes := ns0)
          (.inr har) (.inr one_ne_sizeMax) rfl
        simp only [List.reverse_cons, List.reverse_nil, List.nil_append, List.cons_append] at hpi
        simp only [hp, startArity, hpl, reduceCtorEq, if_false, har, hpi, Except.ok.injEq] at hs
        subst hs
        refine .inl ?_
        have := Post.mk hpre (Expr.postfix (i := i) ht hi hpo he (fun x hx => (pops_iff _ _).1 (hrs x hx)))
          (htop.of_stuck hst)
        simpa using this

theorem stepTok_sound (hE : WFEnv E) (hg : E.glue = none) {ts : List (Nat × Str)} {i : Nat} {tok : Str}
    (hsp : headIs isSpace tok = false) {st st' : PState V} (h : GInv E strtod ts st)
    (hl : isClosingParen tok = true → ∀ x, ts.getLast? = some x →
      E.lookup x.2 .infix = none ∧ E.lookup x.2 .prefix = none)
    (hs : stepTok E strtod i tok st = .ok st') : GInv E strtod (ts ++ [(i, tok)]) st' := by
  obtain ⟨ns, ops, aw, ap⟩ := st
  simp only [stepTok, hsp, Bool.false_eq_true, if_false, stepGlue, hg, stepRest] at hs
  cases ho : isOpeningParen tok with
  | true =>
    simp only [ho, if_true] at hs
    cases aw with
    | true => cases hs
    | false =>
      simp only [Bool.false_eq_true, if_false, Except.ok.injEq] at hs
      subst hs
      cases ap with
      | false => exact Pre.paren h ho
      | true =>
        obtain ⟨ts0, k, tok', f, ops0, rfl, h1, h2, h3, h4, h5⟩ := h
        simp only at h5
        subst h5
        show Pre _ _ _ _ _
        rw [List.append_assoc]
        exact Pre.call h4 h1 h2 h3 ho
  | false =>
    simp only [ho, Bool.false_eq_true, if_false] at hs
    cases ap with
    | true => cases hs
    | false =>
      simp only [Bool.false_eq_true, if_false] at hs
      cases hc : isClosingParen tok with
      | true =>
        simp only [hc, if_true] at hs
        exact stepClosing_sound hE.shape hc h rfl (hl hc) hs
      | false =>
        simp only [hc, Bool.false_eq_true, if_false] at hs
        cases hd : isDelimiter tok with
        | true =>
          simp only [hd, if_true] at hs
          exact stepDelimiter_sound hE.shape hd h rfl hs
        | false =>
          simp only [hd, Bool.false_eq_true, if_false] at hs
          have hp : Plain tok := ⟨hsp, ho, hc, hd⟩
          cases aw with
          | true => exact stepOperator_sound hE hp h (by simpa using hs)
          | false => exact stepOperand_sound hE.shape hp h (by simpa using hs)

theorem runToks_sound (hE : WFEnv E) (hg : E.glue = none) {rest : List (Nat × Str)}
    (hsp : ∀ x ∈ rest, headIs isSpace x.2 = false) {ts : List (Nat × Str)}
    (hnd : NoDangling E ((ts ++ rest).map (·.2))) {st st' : PState V} (h : GInv E strtod ts st)
    (hs : runToks E strtod rest st = .ok st') : GInv E strtod (ts ++ rest) st' := by
  induction rest generalizing ts st with
  | nil =>
    simp only [runToks, Except.ok.injEq] at hs
    subst hs
    simpa using h
  | cons x rest ih =>
    obtain ⟨i, tok⟩ := x
    simp only [runToks] at hs
    cases hst : stepTok E strtod i tok st with
    | error e => simp [hst] at hs
    | ok st1 =>
      simp only [hst] at hs
      have h1 := stepTok_sound hE hg (hsp (i, tok) (by simp)) h (by
        intro hc x hx
        obtain ⟨l, rfl⟩ : ∃ l, ts = l ++ [x] := by
          obtain ⟨l, hl⟩ := List.getLast?_eq_some_iff.mp hx
          exact ⟨l, hl⟩
        exact hnd (l.map (·.2)) x.2 tok (rest.map (·.2)) (by simp) hc) hst
      have := ih (fun x hx => hsp x (by simp [hx])) (ts := ts ++ [(i, tok)]) (by simpa using hnd) h1 hs
      simpa using this

/-- Whatever is accepted, without dangling operators, is an expression. -/
theorem parse_expr (hE : WFEnv E) (hg : E.glue = none) {toks : List (Nat × Str)}
    (hsp : ∀ x ∈ toks, headIs isSpace x.2 = false) (hnd : NoDangling E (toks.map (·.2)))
    {n : Nat} {t : Tree V} (h : parseIdx E strtod toks n = .ok t) :
    ∃ le rs, Expr E strtod toks t le rs := by
  unfold parseIdx at h
  cases hr : runToks E strtod toks PState.init with
  | error e =>
    rw [hr] at h
    simp only at h
    subst h
    exact absurd hr (runToks_error_not_ok _ _ _)
  | ok st =>
    simp only [hr] at h
    have hi : GInv E strtod [] (PState.init : PState V) := Pre.nil
    have hinv := runToks_sound hE hg hsp (ts := []) hnd hi hr
    obtain ⟨ns, ops, aw, ap⟩ := st
    cases ap with
    | true => simp [finish] at h
    | false =>
      cases aw with
      | false => simp [finish] at h
      | true =>
        simp only [finish, Bool.false_eq_true, if_false, Bool.not_true] at h
        cases hp : popWhile (fun _ => true) ns ops with
        | error e => simp only [hp] at h; cases e <;> cases h
        | ok r =>
          obtain ⟨ns', ops'⟩ := r
          have hinv : PostAny E strtod ([] ++ toks) ns ops := hinv
          obtain ⟨rs, hpost, -, -⟩ := hinv.popWhile hE.shape (by simp) hp
          simp only [hp] at h
          generalize hts : [] ++ toks = ts at hpost
          obtain ⟨hpre, he, htop⟩ := hpost
          cases ops' with
          | cons d ds => simp at h
          | nil =>
            cases hpre with
            | nil =>
              simp only [PRes.ok.injEq] at h
              subst h
              simp only [List.nil_append] at hts
              subst hts
              exact ⟨_, _, he⟩

end Verif
