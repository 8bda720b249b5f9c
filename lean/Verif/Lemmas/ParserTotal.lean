import Verif.Lemmas.ParserCount
import Verif.Spec.Delims

namespace Verif
variable {V : Type}

/-- For each parenthesis on the stack, top first: the entry below is one too. -/
def flags : List OpData → List Bool
  | [] => []
  | d :: ds =>
    match d.op with
    | some _ => flags ds
    | none => (match ds with
      | ⟨none, _, _⟩ :: _ => true
      | _ => false) :: flags ds

def topParen : List OpData → Bool
  | ⟨none, _, _⟩ :: _ => true
  | _ => false

theorem flags_some {d : OpData} {o : Op} (h : d.op = some o) (ds : List OpData) :
    flags (d :: ds) = flags ds := by
  obtain ⟨op, a, k⟩ := d
  simp only at h
  subst h
  rfl

theorem flags_none {d : OpData} (h : d.op = none) (ds : List OpData) :
    flags (d :: ds) = topParen ds :: flags ds := by
  obtain ⟨op, a, k⟩ := d
  simp only at h
  subst h
  rfl

theorem nested_eq (ops : List OpData) : nested ops = ((flags ops).head? == some true) := by
  induction ops with
  | nil => rfl
  | cons d ds ih =>
    obtain ⟨op, a, k⟩ := d
    cases op with
    | some o => rw [flags_some rfl, ← ih]; rfl
    | none =>
      rw [flags_none rfl]
      cases ds with
      | nil => rfl
      | cons e es =>
        obtain ⟨op', a', k'⟩ := e
        cases op' <;> rfl

theorem popWhile_flags {p : Op → Bool} {nodes : List (Tree V)} {ops : List OpData}
    {r : List (Tree V) × List OpData} (hr : popWhile p nodes ops = .ok r) :
    flags r.2 = flags ops := by
  induction ops generalizing nodes with
  | nil =>
    simp only [popWhile, Except.ok.injEq] at hr
    subst hr; rfl
  | cons d ds ih =>
    simp only [popWhile] at hr
    split at hr
    · simp only [Except.ok.injEq] at hr; subst hr; rfl
    · rename_i o ho
      split at hr
      · split at hr
        · cases hr
        · rw [flags_some ho]; exact ih hr
      · simp only [Except.ok.injEq] at hr; subst hr; rfl

theorem pushOperator_flags {o : Op} {i : Nat} {nodes : List (Tree V)} {ops : List OpData}
    {r : List (Tree V) × List OpData} (hr : pushOperator o i nodes ops = .ok r) :
    ∃ ops', r.2 = ⟨some o, startArity o, i⟩ :: ops' ∧ flags ops' = flags ops := by
  unfold pushOperator at hr
  split at hr
  · split at hr
    · cases hr
    · rename_i nodes' ops' hp
      simp only [Except.ok.injEq] at hr
      subst hr
      exact ⟨ops', rfl, popWhile_flags hp⟩
  · simp only [Except.ok.injEq] at hr
    subst hr
    exact ⟨ops, rfl, rfl⟩

/-- The scan state describes the parenthesis structure of the stack. -/
structure Flg (st : PState V) (bare : Bool) (stack : List Bool) : Prop where
  flags : flags st.ops = stack
  top : st.awaitInfix = false → topParen st.ops = bare

variable {E : Env} {strtod : Str → Option V}

theorem stepGlue_flg {i : Nat} {tok : Str} {st st' : PState V} {bare : Bool} {stack : List Bool}
    (h : Flg st bare stack) (hr : stepGlue E i tok st = .ok st') :
    st' = st ∨ (st.awaitInfix = true ∧ st'.awaitInfix = false ∧ flags st'.ops = stack ∧
      topParen st'.ops = false) := by
  unfold stepGlue at hr
  split at hr
  · left; simpa using hr.symm
  · split at hr
    · rename_i hcond
      simp only [Bool.and_eq_true] at hcond
      split at hr
      · cases hr
      · rename_i nodes d ops hp
        simp only [Except.ok.injEq] at hr
        subst hr
        right
        obtain ⟨ops', h1, h2⟩ := pushOperator_flags hp
        simp only [List.cons.injEq] at h1
        obtain ⟨rfl, rfl⟩ := h1
        refine ⟨hcond.1.1.1.1, rfl, ?_, rfl⟩
        simp only
        rw [flags_some rfl, h2, h.flags]
      · cases hr
    · left; simpa using hr.symm

/-- Next scan state. -/
def scanNext (bare : Bool) (stack : List Bool) (t : Str) : Bool × List Bool :=
  if headIs isSpace t then (bare, stack)
  else if isOpeningParen t then (true, bare :: stack)
  else if isClosingParen t then (false, stack.tail)
  else if isDelimiter t then (true, stack)
  else (false, stack)

theorem stepTok_flg {i : Nat} {tok : Str} {st st' : PState V} {bare : Bool} {stack : List Bool}
    (h : Flg st bare stack) (hawb : st.awaitInfix = true → bare = false)
    (hr : stepTok E strtod i tok st = .ok st') :
    Flg st' (scanNext bare stack tok).1 (scanNext bare stack tok).2 ∧
      (st'.awaitInfix = true → (scanNext bare stack tok).1 = false) := by
  unfold stepTok at hr
  unfold scanNext
  split at hr
  · rename_i hsp
    simp only [Except.ok.injEq] at hr
    subst hr
    simp only [hsp, if_true]
    exact ⟨h, hawb⟩
  · rename_i hsp
    split at hr
    · cases hr
    · rename_i st1 hg
      simp only [hsp, Bool.false_eq_true, if_false]
      have hst1 := stepGlue_flg h hg
      have hfl : flags st1.ops = stack := by
        rcases hst1 with rfl | h'
        · exact h.flags
        · exact h'.2.2.1
      have htop : st1.awaitInfix = false → topParen st1.ops = bare := by
        rcases hst1 with rfl | h'
        · exact h.top
        · intro _
          rw [h'.2.2.2, hawb h'.1]
      unfold stepRest at hr
      split at hr
      · rename_i hop
        simp only [hop, if_true]
        split at hr
        · cases hr
        · rename_i haw
          have haw' : st1.awaitInfix = false := by simpa using haw
          simp only [Except.ok.injEq] at hr
          subst hr
          refine ⟨⟨?_, fun _ => rfl⟩, by simp [haw']⟩
          simp only
          rw [flags_none rfl, hfl, htop haw']
      · rename_i hop
        simp only [hop, Bool.false_eq_true, if_false]
        split at hr
        · cases hr
        · split at hr
          · rename_i hcl
            simp only [hcl, if_true]
            unfold stepClosing at hr
            split at hr
            · cases hr
            · cases hr
            · rename_i nodes d ops hp
              have hf := popWhile_flags hp
              have hd := popWhile_head hp d ops rfl
              simp only at hf
              rw [flags_none hd, hfl] at hf
              have hfin : flags ops = stack.tail := by rw [← hf]; rfl
              split at hr
              · split at hr
                · split at hr
                  · simp only [Except.ok.injEq] at hr
                    subst hr
                    refine ⟨⟨?_, by simp⟩, by simp⟩
                    rw [flags_some rfl] at hfin
                    rw [flags_some rfl, hfin]
                  · simp only [Except.ok.injEq] at hr
                    subst hr
                    exact ⟨⟨hfin, by simp⟩, by simp⟩
                · simp only [Except.ok.injEq] at hr
                  subst hr
                  exact ⟨⟨hfin, by simp⟩, by simp⟩
              · split at hr
                · split at hr
                  · cases hr
                  · simp only [Except.ok.injEq] at hr
                    subst hr
                    exact ⟨⟨hfin, by simp⟩, by simp⟩
                · cases hr
          · rename_i hcl
            simp only [hcl, Bool.false_eq_true, if_false]
            split at hr
            · rename_i hdl
              simp only [hdl, if_true]
              unfold stepDelimiter at hr
              split at hr
              · cases hr
              · split at hr
                · cases hr
                · rename_i nodes p o a k ops hp
                  split at hr
                  · simp only [Except.ok.injEq] at hr
                    subst hr
                    have hf := popWhile_flags hp
                    have hd := popWhile_head hp p _ rfl
                    simp only at hf
                    rw [flags_none hd, flags_some rfl, hfl] at hf
                    refine ⟨⟨?_, ?_⟩, by simp⟩
                    · simp only
                      rw [flags_none hd, flags_some rfl, ← hf]
                      rfl
                    · intro _
                      obtain ⟨po, pa, pk⟩ := p
                      simp only at hd
                      subst hd
                      rfl
                  · cases hr
                · cases hr
                · cases hr
            · rename_i hdl
              simp only [hdl, Bool.false_eq_true, if_false]
              refine ⟨?_, by simp⟩
              split at hr
              · unfold stepOperator at hr
                split at hr
                · split at hr
                  · cases hr
                  · rename_i nodes ops hp
                    simp only [Except.ok.injEq] at hr
                    subst hr
                    obtain ⟨ops', h1, h2⟩ := pushOperator_flags hp
                    simp only at h1
                    subst h1
                    exact ⟨by rw [flags_some rfl, h2, hfl], fun _ => rfl⟩
                · split at hr
                  · split at hr
                    · cases hr
                    · cases hr
                    · rename_i nodes d ops hp
                      obtain ⟨ops', h1, h2⟩ := pushOperator_flags hp
                      simp only [List.cons.injEq] at h1
                      obtain ⟨rfl, rfl⟩ := h1
                      rw [hfl] at h2
                      split at hr
                      · cases hr
                      all_goals
                        simp only [Except.ok.injEq] at hr
                        subst hr
                        exact ⟨h2, by simp⟩
                  · cases hr
              · unfold stepOperand at hr
                split at hr
                · split at hr
                  · cases hr
                  · rename_i nodes ops hp
                    obtain ⟨ops', h1, h2⟩ := pushOperator_flags hp
                    simp only at h1
                    subst h1
                    rw [hfl] at h2
                    split at hr
                    · simp only at hr
                      split at hr
                      · cases hr
                      · simp only [Except.ok.injEq] at hr
                        subst hr
                        exact ⟨h2, by simp⟩
                    · simp only [Except.ok.injEq] at hr
                      subst hr
                      exact ⟨by rw [flags_some rfl, h2], fun _ => rfl⟩
                · split at hr
                  · split at hr
                    · cases hr
                    · rename_i nodes ops hp
                      obtain ⟨ops', h1, h2⟩ := pushOperator_flags hp
                      simp only at h1
                      subst h1
                      simp only [Except.ok.injEq] at hr
                      subst hr
                      exact ⟨by rw [flags_some rfl, h2, hfl], fun _ => rfl⟩
                  · unfold stepLeaf at hr
                    split at hr
                    · simp only [Except.ok.injEq] at hr
                      subst hr
                      exact ⟨hfl, by simp⟩
                    · split at hr
                      · cases hr
                      · split at hr
                        · cases hr
                        · simp only [Except.ok.injEq] at hr
                          subst hr
                          exact ⟨hfl, by simp⟩

theorem delimsOk_cons {bare : Bool} {stack : List Bool} {t : Str} {ts : List Str}
    (h : delimsOk bare stack (t :: ts) = true) :
    delimsOk (scanNext bare stack t).1 (scanNext bare stack t).2 ts = true ∧
    (headIs isSpace t = false → isOpeningParen t = false → isClosingParen t = false →
      isDelimiter t = true → (stack.head? == some true) = false) := by
  unfold delimsOk at h
  unfold scanNext
  split at h
  · simp_all
  · split at h
    · simp_all
    · split at h
      · simp_all
      · split at h
        · simp only [Bool.and_eq_true, bne_iff_ne, ne_eq] at h
          simp_all
        · simp_all

theorem delim_not_paren {t : Str} (h : isDelimiter t = true) :
    isOpeningParen t = false ∧ isClosingParen t = false := by
  simp only [isDelimiter, beq_iff_eq] at h
  subst h
  decide

/-- Indices of the significant tokens. -/
def sigIdx (toks : List (Nat × Str)) : List Nat :=
  (toks.filter fun x => significant x.2).map (·.1)

theorem runToks_inv (hE : WFEnv E) (toks : List (Nat × Str)) {st : PState V} {L : List Nat}
    (h : SInv st L)
    (hfn : ∀ d ∈ st.ops, ∀ o, d.op = some o → o.placement = .function → o.prec = 255)
    {bare : Bool} {stack : List Bool} (hflg : Flg st bare stack)
    (hawb : st.awaitInfix = true → bare = false)
    (hdel : delimsOk bare stack (toks.map (·.2)) = true) :
    (∀ st', runToks E strtod toks st = .ok st' →
      ∃ G : List Nat, (E.glue = none → G = []) ∧ (∀ x ∈ G, x ∈ toks.map (·.1)) ∧
        ∃ L', L'.Perm (L ++ G ++ sigIdx toks) ∧ SInv st' L') ∧
    (∀ e, runToks E strtod toks st = .error e → Fine e) := by
  induction toks generalizing st L bare stack with
  | nil =>
    refine ⟨?_, by simp [runToks]⟩
    intro st' hst
    simp only [runToks, Except.ok.injEq] at hst
    subst hst
    exact ⟨[], by simp, by simp, L, by simp [sigIdx], h⟩
  | cons x rest ih =>
    obtain ⟨i, tok⟩ := x
    simp only [List.map_cons] at hdel
    obtain ⟨hd1, hd2⟩ := delimsOk_cons hdel
    have hstep := stepTok_inv (E := E) (strtod := strtod) (i := i) (tok := tok) hE h hfn (by
      intro hsp hdl
      have := delim_not_paren hdl
      rw [nested_eq, hflg.flags]
      exact hd2 hsp this.1 this.2 hdl)
    cases hs : stepTok E strtod i tok st with
    | error e =>
      simp only [runToks, hs]
      refine ⟨by simp, ?_⟩
      intro e' he'
      simp only [Except.error.injEq] at he'
      subst he'
      exact hstep.2 e hs
    | ok st1 =>
      obtain ⟨G1, a1, a2, a3⟩ := hstep.1 st1 hs
      obtain ⟨f1, f2⟩ := stepTok_flg hflg hawb hs
      have hfn1 : ∀ d ∈ st1.ops, ∀ o, d.op = some o → o.placement = .function → o.prec = 255 := by
        have H : InvHyp E strtod [(i, tok)] (fun _ => True)
            (fun d => ∀ o, d.op = some o → o.placement = .function → o.prec = 255) := by
          refine ⟨by simp, by simp, by simp, ?_, ?_, ?_, by simp⟩
          · intro i tok pl o a _ hl o' ho' hf
            simp only [Option.some.injEq] at ho'
            subst ho'
            exact (hE.op _ _ _ hl).2.fn hf
          · intro i tok o a _ hl o' ho' hf
            simp only [Option.some.injEq] at ho'
            subst ho'
            exact (hE.glue _ hl).2.fn hf
          · intro d a hd
            exact hd
        exact (stepTok_good H (by simp) ⟨by simp, hfn⟩ hs).2
      obtain ⟨b1, b2⟩ := ih a3 hfn1 f1 f2 hd1
      simp only [runToks, hs]
      refine ⟨?_, b2⟩
      intro st' hst
      obtain ⟨G2, c1, c2, L', c3, c4⟩ := b1 st' hst
      refine ⟨G1 ++ G2, ?_, ?_, L', ?_, c4⟩
      · intro hg; rw [a1 hg, c1 hg]; rfl
      · intro x hx
        rcases List.mem_append.mp hx with hx | hx
        · simp [a2 x hx]
        · simp only [List.map_cons, List.mem_cons]
          exact .inr (c2 x hx)
      · refine c3.trans ?_
        have e1 : sigIdx ((i, tok) :: rest) = (if significant tok then [i] else []) ++ sigIdx rest := by
          unfold sigIdx
          cases hsg : significant tok <;> simp [hsg]
        rw [e1]
        generalize (if significant tok then [i] else []) = S
        simp only [List.append_assoc]
        refine List.Perm.append_left _ (List.Perm.append_left _ ?_)
        rw [← List.append_assoc, ← List.append_assoc]
        exact List.Perm.append_right _ List.perm_append_comm

/-- Outcome of the parser for a well-formed context and tokens whose delimiters
are in order. -/
theorem parseIdx_total (hE : WFEnv E) (toks : List (Nat × Str)) (n : Nat)
    (hdel : delimsOk false [] (toks.map (·.2)) = true) :
    Fine (parseIdx E strtod toks n) ∧
    (∀ t, parseIdx E strtod toks n = .ok t →
      ∃ st, runToks E strtod toks PState.init = .ok st ∧
        popWhile (fun _ => true) st.nodes st.ops = .ok ([t], []) ∧
        ∃ G : List Nat, (E.glue = none → G = []) ∧ (∀ x ∈ G, x ∈ toks.map (·.1)) ∧
          (treeToks t).Perm (sigIdx toks ++ G)) := by
  have hinit : SInv (PState.init : PState V) [] := by
    refine ⟨by simp [PState.init], by simp [PState.init], fun _ => ⟨trivial, rfl, ?_⟩⟩
    exact List.Perm.refl _
  have hrun := runToks_inv (strtod := strtod) hE toks hinit (by simp [PState.init])
    (bare := false) (stack := []) ⟨rfl, fun _ => rfl⟩ (by simp) hdel
  unfold parseIdx
  cases hr : runToks E strtod toks PState.init with
  | error e =>
    refine ⟨hrun.2 e hr, ?_⟩
    intro t ht
    simp only at ht
    subst ht
    exact absurd hr (runToks_error_not_ok toks _ t)
  | ok st =>
    obtain ⟨G, g1, g2, L', g3, hinv⟩ := hrun.1 st hr
    simp only
    unfold finish
    split
    · exact ⟨trivial, by simp⟩
    · split
      · exact ⟨trivial, by simp⟩
      · rename_i haw
        have haw' : st.awaitInfix = true := by simpa using haw
        obtain ⟨p1, p2, p3⟩ := popWhile_done (p := fun _ => true) (hinv.yes haw') (by simp)
        cases hp : popWhile (fun _ => true) st.nodes st.ops with
        | error e =>
          rw [hp] at p2 p3
          refine ⟨exit_fine (fun hc => p2 (by rw [hc])) (fun hc => p3 (by rw [hc])), ?_⟩
          intro t ht
          cases e <;> simp [PopErr.exit] at ht
        | ok r =>
          obtain ⟨nodes, ops⟩ := r
          have hc := p1 _ hp
          cases ops with
          | cons d ds =>
            cases nodes <;> exact ⟨trivial, by simp⟩
          | nil =>
            have hcn := hc.count
            simp only [need] at hcn
            cases nodes with
            | nil => simp at hcn
            | cons t ts =>
              have : ts = [] := List.length_eq_zero_iff.mp (by simpa using hcn)
              subst this
              refine ⟨trivial, ?_⟩
              intro t' ht'
              simp only [PRes.ok.injEq] at ht'
              subst ht'
              refine ⟨st, rfl, hp, G, g1, g2, ?_⟩
              have hpm := hc.perm
              unfold accounted at hpm
              simp only [List.flatMap_cons, List.flatMap_nil, List.append_nil, List.filterMap_nil] at hpm
              exact hpm.trans (g3.trans (by simpa using List.perm_append_comm))

end Verif
