import Verif.Lemmas.SessionCtx
import Verif.Lemmas.Expand
import Verif.Props.Parser
import Verif.Props.TreeUtil

/-!
# Invariant of the calculator's session
-/

namespace Verif
open ParserProps
variable {V ε ρ : Type}

/-- The session has the functions `D`, in the order of their definition. -/
structure Sess (s : Session V ρ) (D : List (FunDef V)) : Prop where
  ctx : Holds s.ctx (D.map (·.op))
  rules : List.Forall₂ IsDef s.funs D
  arity : ∀ d ∈ D, d.op.arity = .fixed d.params.length
  ids : ∀ d ∈ D, 58 ≤ d.op.id

/-- Nothing observable has changed, except for the world outside. -/
structure Unchanged (s s' : Session V ρ) : Prop where
  funs : s'.funs = s.funs
  hist : s'.hist = s.hist
  ops : s'.ctx.ops = s.ctx.ops
  holds : ∀ us, Holds s.ctx us → Holds s'.ctx us

theorem Unchanged.refl (s : Session V ρ) : Unchanged s s := ⟨rfl, rfl, rfl, fun _ h => h⟩

theorem Unchanged.sess {s s' : Session V ρ} (h : Unchanged s s') {D : List (FunDef V)} (hs : Sess s D) :
    Sess s' D := ⟨h.holds _ hs.ctx, h.funs ▸ hs.rules, hs.arity, hs.ids⟩

theorem Sess.rootOps {s : Session V ρ} {D : List (FunDef V)} (h : Sess s D) :
    s.funs.map (fun r => r.pattern.tree.rootOp) = D.map (fun d => some d.op) := by
  have := h.rules
  clear h
  generalize s.funs = rs at this
  induction this with
  | nil => rfl
  | cons h1 _ ih =>
    obtain ⟨-, -, -, ps, tok, h4, -⟩ := h1.shape
    simp only [List.map_cons, h4]
    rw [ih]
    rfl

/-! ## Left sides -/

theorem addNew_length_le (vs ns : List Str) : (addNew vs ns).length ≤ vs.length + ns.length := by
  induction ns generalizing vs with
  | nil => simp [addNew]
  | cons n ns ih =>
    simp only [addNew, List.length_cons]
    split
    · have := ih vs; omega
    · have := ih (vs ++ [n]); simp only [List.length_append, List.length_singleton] at this; omega

theorem nodup_of_addNew {vs ns : List Str} (h : (addNew vs ns).length = vs.length + ns.length)
    (hv : vs.Nodup) : (vs ++ ns).Nodup := by
  induction ns generalizing vs with
  | nil => simpa using hv
  | cons n ns ih =>
    simp only [addNew, List.length_cons] at h
    split at h
    · have := addNew_length_le vs ns; omega
    · rename_i hn
      have := ih (vs := vs ++ [n]) (by simp only [List.length_append, List.length_singleton]; omega)
        (by rw [List.nodup_append]; refine ⟨hv, by simp, ?_⟩
            intro a ha b hb
            simp only [List.mem_singleton] at hb
            subst hb
            rintro rfl
            exact hn ha)
      simpa using this

theorem allVars_iff (cs : List (Tree V)) (h : cs.all Tree.isVariable = true) :
    List.Forall₂ (fun c n => ∃ x i, c = Tree.var n x i) cs (Tree.namesList cs) := by
  induction cs with
  | nil => exact .nil
  | cons c cs ih =>
    simp only [List.all_cons, Bool.and_eq_true] at h
    cases c with
    | var n x i =>
      simp only [Tree.namesList, Tree.names, List.singleton_append]
      exact .cons ⟨x, i, rfl⟩ (ih h.2)
    | const => simp [Tree.isVariable] at h
    | op => simp [Tree.isVariable] at h

theorem withIds_params {f : Str → Nat} {cs : List (Tree V)} {ps : List Str}
    (h : List.Forall₂ (fun c n => ∃ x i, c = Tree.var n x i) cs ps) :
    List.Forall₂ (fun c n => ∃ x i, c = Tree.var n x i) (Tree.withIdsList f cs) ps := by
  induction h with
  | nil => exact .nil
  | cons h1 _ ih =>
    obtain ⟨x, i, rfl⟩ := h1
    exact .cons ⟨_, _, rfl⟩ ih

/-- `do_left_checks` accepts a function with distinct variables as arguments. -/
theorem leftChecks_spec {t t' : Tree V} (h : leftChecks t = some t') :
    ∃ o cs cs' i ps, t = .op o cs i ∧ t' = .op o cs' i ∧ o.placement = .function ∧
      List.Forall₂ (fun c n => ∃ x i, c = Tree.var n x i) cs ps ∧
      List.Forall₂ (fun c n => ∃ x i, c = Tree.var n x i) cs' ps ∧ ps.Nodup ∧
      ps.length ≤ maxMappedVars := by
  cases t with
  | const => simp [leftChecks] at h
  | var => simp [leftChecks] at h
  | op o cs i =>
    simp only [leftChecks] at h
    split at h
    · cases h
    · rename_i hp
      simp only [ne_eq, Decidable.not_not] at hp
      split at h
      · rename_i he
        cases h
        rw [List.isEmpty_iff] at he
        subst he
        exact ⟨o, [], [], i, [], rfl, rfl, hp, .nil, .nil, by simp, by simp⟩
      · split at h
        · rename_i hv
          have hvars := allVars_iff cs hv
          by_cases hl : (addNew [] (Tree.op o cs i).names).length ≤ maxMappedVars
          · rw [listVariables_ok hl] at h
            simp only [Bool.not_true, Bool.false_eq_true, if_false] at h
            split at h
            · cases h
            · rename_i hc
              simp only [ne_eq, Decidable.not_not] at hc
              cases h
              have hlen := hvars.length_eq
              simp only [Tree.names] at hc hl
              refine ⟨o, cs, _, i, Tree.namesList cs, rfl, by simp only [Tree.withIds]; rfl, hp, hvars,
                withIds_params hvars, ?_, by omega⟩
              have := nodup_of_addNew (vs := []) (ns := Tree.namesList cs)
                (by simp only [List.length_nil]; omega) (by simp)
              simpa using this
          · have := listVarsRec_spec maxMappedVars (Tree.op o cs i) [] (by simp)
            rw [if_neg hl] at this
            obtain ⟨t2, h2⟩ := this
            simp only [listVariables, h2] at h
            simp at h
        · cases h

theorem getPattern_left {o : Op} {cs : List (Tree V)} {i : Nat} {ps : List Str}
    (h : List.Forall₂ (fun c n => ∃ x i, c = Tree.var n x i) cs ps) (hl : ps.length ≤ maxMappedVars) :
    ∃ p, getPattern (.op o cs i) [] = .ok p := by
  have hn : (Tree.op o cs i).names = ps := by simp only [Tree.names, names_vars h]
  have : (addNew [] (Tree.op o cs i).names).length ≤ maxMappedVars := by
    have := addNew_length_le [] ps
    rw [hn]
    simp only [List.length_nil] at this
    omega
  unfold getPattern
  rw [listVariables_ok this]
  simp [addConstraints]

/-! ## Names -/

theorem canon_word {K : Str → Prop} {inp : Str} {ts : List Str} (h : Canon K inp ts) :
    ∀ t ∈ ts, headIs isLetter t = true → isWord t = true := by
  induction h with
  | nil => intro t ht; cases ht
  | @letters run rest ts h1 h2 h3 _ ih =>
    intro t ht hl
    rcases List.mem_cons.mp ht with rfl | ht
    · simp only [isWord, Bool.and_eq_true, List.all_eq_true]
      exact ⟨by cases t <;> simp_all, h2⟩
    · exact ih t ht hl
  | @keyword k rest ts h1 _ _ ih =>
    intro t ht hl
    rcases List.mem_cons.mp ht with rfl | ht
    · rw [h1] at hl; cases hl
    · exact ih t ht hl
  | @digits run rest ts h1 h2 _ _ _ ih =>
    intro t ht hl
    rcases List.mem_cons.mp ht with rfl | ht
    · cases t with
      | nil => cases hl
      | cons c t =>
        have := isLetter_not_isDigit (c := c) hl
        rw [h2 c (by simp)] at this
        cases this
    · exact ih t ht hl
  | @other c rest ts h1 _ _ _ ih =>
    intro t ht hl
    rcases List.mem_cons.mp ht with rfl | ht
    · simp only [headIs] at hl
      rw [h1] at hl; cases hl
    · exact ih t ht hl

theorem Holds.word {c : Ctx} {us : List Op} (h : Holds c us) {inp t : Str}
    (ht : t ∈ tokenize c.keywords inp) (hl : headIs isLetter t = true) : isWord t = true :=
  canon_word (C08_calculator c h.like inp) t ht hl

theorem letter_ne {c : Char} (h : isLetter c = true) :
    c ≠ '(' ∧ c ≠ '{' ∧ c ≠ ')' ∧ c ≠ '}' ∧ c ≠ ',' := by
  refine ⟨?_, ?_, ?_, ?_, ?_⟩ <;> (rintro rfl; revert h; decide)

theorem word_noParen {s : Str} (h : isWord s = true) :
    isOpeningParen s = false ∧ isClosingParen s = false ∧ isDelimiter s = false := by
  cases s with
  | nil => simp [isWord] at h
  | cons c s =>
    simp only [isWord, List.all_cons, Bool.and_eq_true] at h
    obtain ⟨h1, h2, h3, h4, h5⟩ := letter_ne h.2.1
    simp [isOpeningParen, isClosingParen, isDelimiter, h1, h2, h3, h4, h5]

/-- A text that consists of the name of a constant and spaces. -/
theorem parse_constant {E : Env} {strtod : Str → Option V} {name : Str} {toks : List Str} {f : Op}
    (ht : (toks.filter fun t => !headIs isSpace t) = [name]) (hw : isWord name = true)
    (hf : E.lookup name .function = some f) (ha : f.arity = .fixed 0) (hp : f.placement = .function) :
    ∃ i, parseTokens E strtod toks = .ok (.op f [] i) := by
  rw [C20_spaces_irrelevant, ht]
  obtain ⟨p1, p2, p3⟩ := word_noParen hw
  have hsp : headIs isSpace name = false := by
    have : name ∈ toks.filter fun t => !headIs isSpace t := by rw [ht]; simp
    simpa using (List.mem_filter.mp this).2
  have hpush : pushOperator (V := V) f 0 [] [] = .ok ([], [⟨some f, 0, 0⟩]) := by
    simp [pushOperator, hp, startArity]
  have : parseTokens E strtod [name] = .ok (.op f [] 0) := by
    cases hg : E.glue with
    | none =>
      simp [parseTokens, number, parseIdx, runToks, stepTok, hsp, stepGlue, hg, stepRest, p1, p2, p3,
        PState.init, stepOperand, hf, hpush, ha, popInsert, sizeMax, finish, popWhile]
    | some g =>
      simp [parseTokens, number, parseIdx, runToks, stepTok, hsp, stepGlue, hg, stepRest, p1, p2, p3,
        PState.init, stepOperand, hf, hpush, ha, popInsert, sizeMax, finish, popWhile]
  rw [this]
  exact ⟨_, by simp [PRes.mapTok]; rfl⟩

theorem parseEasy_ok {c : Ctx} {strtod : Str → Option V} {s : Str} {t : Tree V} :
    parseEasy c strtod s = .ok (some t) ↔ parseTokens c.env strtod (tokenize c.keywords s) = .ok t := by
  unfold parseEasy parseInput
  simp only
  cases parseTokens c.env strtod (tokenize c.keywords s) <;> simp

/-! ## Definitions -/

theorem definitionFail_spec {s s' : Session V ρ} {b c : Ctx} {us : List Op} {o : Op} {w : ρ} {r : Bool}
    (hb : Holds b us) (hbo : b.ops = s.ctx.ops) (hbh : ∀ vs, Holds s.ctx vs → Holds b vs)
    (hc : Holds c (us ++ [o])) (hco : c.ops = b.ops ++ [(b.nextAddr, o)])
    (h : definitionFail s c w o.name = .ok (s', r)) : r = false ∧ Unchanged s s' ∧ s'.world = w := by
  obtain ⟨d, h1, h2, h3⟩ := hb.undo hc hco
  simp only [definitionFail, h1, Out.of_ok, Out.bind_ok, Out.pure_eq, Out.ok.injEq, Prod.mk.injEq] at h
  obtain ⟨rfl, rfl⟩ := h
  refine ⟨rfl, ⟨rfl, rfl, by simpa using h3.trans hbo, ?_⟩, rfl⟩
  intro vs hvs
  have hv := hbh vs hvs
  have : vs = us := by
    have e1 := hv.snd
    rw [hb.snd] at e1
    exact (List.append_cancel_left e1).symm
  exact this ▸ h2

/-- The part of `add_function` after the left side has been checked. -/
theorem addFunctionRight_spec {K : Client V ε ρ} {s s' : Session V ρ} {b c : Ctx} {us : List Op}
    {o : Op} {right : Str} {cs : List (Tree V)} {i : Nat} {ps : List Str} {r : Bool}
    (hb : Holds b us) (hbo : b.ops = s.ctx.ops) (hbh : ∀ vs, Holds s.ctx vs → Holds b vs)
    (hc : Holds c (us ++ [o])) (hco : c.ops = b.ops ++ [(b.nextAddr, o)])
    (hv : List.Forall₂ (fun c n => ∃ x i, c = Tree.var n x i) cs ps) (hnd : ps.Nodup)
    (h : addFunctionRight K s c o.name right (.op o cs i) o = .ok (s', r)) :
    (r = false ∧ Unchanged s s') ∨
    (r = true ∧ ∃ rule rt body, IsDef rule ⟨o, ps, body⟩ ∧ s'.funs = s.funs ++ [rule] ∧
      s'.hist = s.hist ∧ s'.ctx = c ∧ parseEasy c K.strtod right = .ok (some rt) ∧
      findOpNode o.id rt [] = none ∧
      arithSimplify K s.funs s.hist s.world rt = .ok (s'.world, some body)) := by
  have fail : ∀ {w}, definitionFail s c w o.name = .ok (s', r) → r = false ∧ Unchanged s s' := fun h =>
    let ⟨h1, h2, _⟩ := definitionFail_spec hb hbo hbh hc hco h
    ⟨h1, h2⟩
  simp only [addFunctionRight] at h
  obtain ⟨p, hp, h⟩ := Out.bind_eq_ok.1 h
  rw [Out.of_eq_ok] at hp
  cases p with
  | none => exact .inl (fail h)
  | some rt =>
    simp only at h
    split at h
    · exact .inl (fail h)
    · rename_i hno
      obtain ⟨⟨w, x⟩, hx, h⟩ := Out.bind_eq_ok.1 h
      cases x with
      | none => cases h
      | some body =>
        simp only at h
        split at h
        · cases h
        · rename_i pat hpat
          split at h
          · exact .inl (fail h)
          · rename_i rule hrule
            right
            simp only [Out.pure_eq, Out.ok.injEq, Prod.mk.injEq] at h
            obtain ⟨rfl, rfl⟩ := h
            refine ⟨rfl, rule, rt, body, ⟨⟨cs, i, hv, pat, hpat, hrule⟩, hnd⟩, rfl, rfl, rfl, hp, ?_, hx⟩
            simpa using hno

/-- What a successful definition has done: the parts of the input and the new
function. -/
structure DefinedBy (K : Client V ε ρ) (s s' : Session V ρ) (D : List (FunDef V)) (input : Str)
    (d : FunDef V) : Prop where
  id : d.op.id = 58 + D.length
  arity : d.op.arity = .fixed d.params.length
  fresh : (arithEnv (D.map (·.op))).lookup d.op.name .function = none
  text : ∃ k, strstr input "=".toList = some k ∧
    ((tokenize s.ctx.keywords (input.take k)).filter fun t => !headIs isSpace t).head? = some d.op.name ∧
    (∃ c o q cs i, Holds c (D.map (·.op) ++ [o]) ∧ o.name = d.op.name ∧ o.placement = .function ∧
      (o.arity = .fixed 0 ∨ o.arity = .dyn) ∧
      parseEasy c K.strtod (input.take k) = .ok (some (.op q cs i)) ∧
      List.Forall₂ (fun c n => ∃ x i, c = Tree.var n x i) cs d.params) ∧
    ∃ rt, parseEasy s'.ctx K.strtod (input.drop (k + 1)) = .ok (some rt) ∧
      findOpNode d.op.id rt [] = none ∧
      arithSimplify K s.funs s.hist s.world rt = .ok (s'.world, some d.body)

theorem forall2_snoc {α β : Type} {R : α → β → Prop} {as : List α} {bs : List β} {a : α} {b : β}
    (h : List.Forall₂ R as bs) (hab : R a b) : List.Forall₂ R (as ++ [a]) (bs ++ [b]) := by
  induction h with
  | nil => exact .cons hab .nil
  | cons h1 _ ih => exact .cons h1 ih

theorem userFn_of {o : Op} (hw : isWord o.name = true) (hp : o.placement = .function)
    (hq : o.prec = (Op.getFunction o.name o.arity).prec) : UserFn o :=
  ⟨hp, hq, hw⟩

theorem definitionExec_spec {K : Client V ε ρ} {s s' : Session V ρ} {D : List (FunDef V)} {input : Str}
    {r : Bool} (hs : Sess s D) (h : definitionExec K s input = .ok (s', r)) :
    (r = false ∧ Unchanged s s') ∨
    (r = true ∧ ∃ d, s'.hist = s.hist ∧ Sess s' (D ++ [d]) ∧ DefinedBy K s s' D input d ∧
      ∃ rule, s'.funs = s.funs ++ [rule]) := by
  unfold definitionExec at h
  split at h
  · cases h
  · rename_i k hk
    simp only at h
    split at h
    · simp only [Out.pure_eq, Out.ok.injEq, Prod.mk.injEq] at h
      obtain ⟨rfl, rfl⟩ := h
      exact .inl ⟨rfl, .refl _⟩
    · rename_i name more htoks
      split at h
      · simp only [Out.pure_eq, Out.ok.injEq, Prod.mk.injEq] at h
        obtain ⟨rfl, rfl⟩ := h
        exact .inl ⟨rfl, .refl _⟩
      · rename_i hlet
        simp only [Bool.not_eq_true, Bool.not_eq_false'] at hlet
        have hmem : name ∈ tokenize s.ctx.keywords (input.take k) := by
          have : name ∈ (tokenize s.ctx.keywords (input.take k)).filter fun t => !headIs isSpace t := by
            rw [htoks]; simp
          exact (List.mem_filter.mp this).1
        have hw := hs.ctx.word hmem hlet
        obtain ⟨lk, hlk, hlk2⟩ := hs.ctx.lookup name .function
        simp only [addFunction, hlk, Out.of_ok, Out.bind_ok] at h
        cases lk with
        | some x =>
          simp only [Out.pure_eq, Out.ok.injEq, Prod.mk.injEq] at h
          obtain ⟨rfl, rfl⟩ := h
          exact .inl ⟨rfl, .refl _⟩
        | none =>
          simp only [Option.map_none] at hlk2
          have hlk2 := hlk2.symm
          obtain ⟨o1, ho1⟩ : ∃ o1, (if more.isEmpty = true then Op.getConstant name
            else Op.getFunction name .dyn) = o1 := ⟨_, rfl⟩
          have hu1 : UserFn o1 ∧ o1.name = name := by
            subst ho1
            split
            · exact ⟨⟨rfl, rfl, hw⟩, rfl⟩
            · exact ⟨⟨rfl, rfl, hw⟩, rfl⟩
          rw [ho1] at h
          obtain ⟨c1, ha1, hc1, hd1, hop1⟩ := hs.ctx.addOp hu1.1 (by rw [hu1.2]; exact hlk2)
          simp only [ha1, Out.of_ok, Out.bind_ok] at h
          have hundo := hs.ctx.undo hc1 hop1
          have fail1 : ∀ {w}, definitionFail s c1 w name = .ok (s', r) → r = false ∧ Unchanged s s' := by
            intro w hf
            have := definitionFail_spec (s := s) hs.ctx rfl (fun _ h => h) hc1 hop1
              (w := w) (s' := s') (r := r) (by rw [← hf]; exact congrArg _ hu1.2)
            exact ⟨this.1, this.2.1⟩
          obtain ⟨lt, hlt, h2⟩ := Out.bind_eq_ok.1 h
          clear h
          have h := h2
          clear h2
          rw [Out.of_eq_ok] at hlt
          cases lt with
          | none => exact .inl (fail1 h)
          | some lt =>
            simp only at h
            cases hlc : leftChecks lt with
            | none => rw [hlc] at h; exact .inl (fail1 h)
            | some lt' =>
              rw [hlc] at h
              simp only at h
              obtain ⟨o, cs, cs', i, ps, rfl, rfl, hpl, hv, hv', hnd, hle⟩ := leftChecks_spec hlc
              by_cases hmore : more.isEmpty = true
              · -- a constant
                rw [if_pos hmore] at h
                rw [List.isEmpty_iff] at hmore
                subst hmore
                simp only [List.isEmpty_nil, if_true] at ho1
                subst ho1
                simp only [hd1, Out.of_ok, Out.bind_ok, List.length_map] at h hc1 hop1
                have hpc : ∃ j, parseTokens c1.env K.strtod (tokenize c1.keywords (input.take k)) =
                    .ok (.op { Op.getConstant name with id := 58 + D.length } [] j) := by
                  refine parse_constant (name := name) ?_ hw ?_ rfl rfl
                  · rw [hc1.like.tokenize hs.ctx.like]; exact htoks
                  · rw [hc1.env]
                    have : (arithEnv (D.map (·.op))).lookup name .function = none := hlk2
                    simp only [arithEnv, List.find?_append] at this ⊢
                    rw [← Option.or_assoc, this, Option.none_or]
                    simp [Op.getConstant, Op.getFunction]
                obtain ⟨j, hpc⟩ := hpc
                rw [parseEasy_ok, hpc] at hlt
                simp only [PRes.ok.injEq, Tree.op.injEq] at hlt
                obtain ⟨rfl, rfl, rfl⟩ := hlt
                cases hv
                cases hv'
                have key := addFunctionRight_spec (K := K) (s := s) (s' := s') (right := input.drop (k + 1))
                  (i := j) (r := r) hs.ctx rfl (fun _ h => h) hc1 hop1 .nil hnd h
                rcases key with hbad | ⟨hr, rule, rt, body, k1, k2, k3, k4, k5, k6, k7⟩
                · exact .inl hbad
                · right
                  refine ⟨hr, ⟨_, [], body⟩, k3, ⟨?_, ?_, ?_, ?_⟩, ⟨rfl, rfl, hlk2, k, hk, ?_, ?_, rt, ?_, k6, k7⟩,
                    rule, k2⟩
                  · rw [k4, List.map_append]; exact hc1
                  · rw [k2]; exact forall2_snoc hs.rules k1
                  · intro d hd
                    rcases List.mem_append.mp hd with hd | hd
                    · exact hs.arity d hd
                    · simp only [List.mem_singleton] at hd
                      subst hd; rfl
                  · intro d hd
                    rcases List.mem_append.mp hd with hd | hd
                    · exact hs.ids d hd
                    · simp only [List.mem_singleton] at hd
                      subst hd
                      exact Nat.le_add_right 58 D.length
                  · rw [htoks]; rfl
                  · exact ⟨c1, _, _, [], j, hc1, rfl, rfl, .inl rfl, parseEasy_ok.2 hpc, .nil⟩
                  · rw [k4]; exact k5
              · -- a function with parameters
                rw [if_neg hmore] at h ho1
                subst ho1
                obtain ⟨c2, hdel, hc2, hop2⟩ := hundo
                have hdel' : c1.deleteOp name .function = .ok (c2, true) := hdel
                rw [hdel'] at h
                simp only [Out.of_ok, Out.bind_ok, Tree.numChildren] at h
                have hu3 : UserFn (Op.getFunction name (.fixed cs'.length)) := ⟨rfl, rfl, hw⟩
                obtain ⟨c3, ha3, hc3, hd3, hop3⟩ := hc2.addOp hu3 hlk2
                rw [ha3] at h
                simp only [Out.of_ok, Out.bind_ok, hd3, Tree.setRootOp, List.length_map] at h hc3 hop3
                have key := addFunctionRight_spec (K := K) (s := s) (s' := s') (right := input.drop (k + 1))
                  (i := i) (r := r) hc2 hop2
                  (by
                    intro vs hvs
                    have e1 := hvs.snd
                    rw [hs.ctx.snd] at e1
                    exact (List.append_cancel_left e1) ▸ hc2)
                  hc3 hop3 hv' hnd h
                rcases key with hbad | ⟨hr, rule, rt, body, k1, k2, k3, k4, k5, k6, k7⟩
                · exact .inl hbad
                · right
                  have har : (Op.getFunction name (.fixed cs'.length)).arity = .fixed ps.length := by
                    rw [← hv'.length_eq]; rfl
                  refine ⟨hr, ⟨{ Op.getFunction name (.fixed cs'.length) with id := 58 + D.length }, ps, body⟩, k3,
                    ⟨?_, ?_, ?_, ?_⟩, ⟨rfl, har, hlk2, k, hk, ?_, ?_, rt, ?_, k6, k7⟩,
                    rule, k2⟩
                  · rw [k4, List.map_append]; exact hc3
                  · rw [k2]; exact forall2_snoc hs.rules k1
                  · intro d hd
                    rcases List.mem_append.mp hd with hd | hd
                    · exact hs.arity d hd
                    · simp only [List.mem_singleton] at hd
                      subst hd; exact har
                  · intro d hd
                    rcases List.mem_append.mp hd with hd | hd
                    · exact hs.ids d hd
                    · simp only [List.mem_singleton] at hd
                      subst hd
                      exact Nat.le_add_right 58 D.length
                  · rw [htoks]; rfl
                  · exact ⟨c1, _, o, cs, i, hc1, rfl, rfl, .inr rfl, hlt, hv⟩
                  · rw [k4]; exact k5

/-! ## Clearing -/

theorem arithCtx_builtin {c : Ctx} (h : arithCtx = .ok c) : c.ops = builtin := by
  have key : (match arithCtx with
    | .ok c => decide (c.ops = builtin)
    | _ => false) = true := by decide +kernel
  rw [h] at key
  simpa using key

theorem initSession_sess {w : ρ} {s : Session V ρ} (h : initSession w = .ok s) : Sess s [] := by
  obtain ⟨c, hc, hl⟩ := arithCtx_ok
  simp only [initSession, hc, Res.bind_ok, Res.pure_eq, Res.ok.injEq] at h
  subst h
  refine ⟨⟨hl, ?_, by simp⟩, .nil, by simp, by simp⟩
  have := arithCtx_builtin hc
  exact ⟨[], rfl, by simpa using this⟩

theorem filter_names {D : List (FunDef V)} (hn : (D.map (·.op.name)).Nodup) {d : FunDef V} {A B : List (FunDef V)}
    (hD : D = A ++ d :: B) : D.filter (fun e => e.op.name != d.op.name) = A ++ B := by
  subst hD
  rw [List.map_append, List.map_cons, List.nodup_append, List.nodup_cons] at hn
  obtain ⟨-, ⟨h2, -⟩, h3⟩ := hn
  rw [List.filter_append, List.filter_cons]
  simp only [bne_self_eq_false, Bool.false_eq_true, if_false]
  rw [List.filter_eq_self.mpr, List.filter_eq_self.mpr]
  · intro e he
    simp only [bne_iff_ne, ne_eq]
    intro hE
    exact h2 (hE ▸ List.mem_map_of_mem (f := fun e : FunDef V => e.op.name) he)
  · intro e he
    simp only [bne_iff_ne, ne_eq]
    exact h3 _ (List.mem_map_of_mem (f := fun e : FunDef V => e.op.name) he) _ (by simp)

theorem takeRule_spec {rs : List (RewriteRule V)} {D : List (FunDef V)} (h : List.Forall₂ IsDef rs D) (o : Op) :
    (takeRule o rs = none ∧ ∀ d ∈ D, d.op ≠ o) ∨
    ∃ r rest A d B, takeRule o rs = some (r, rest) ∧ D = A ++ d :: B ∧ d.op = o ∧ IsDef r d ∧
      List.Forall₂ IsDef rest (A ++ B) := by
  induction h with
  | nil => left; exact ⟨rfl, by simp⟩
  | @cons r d rs D h1 h2 ih =>
    have hroot : r.pattern.tree.rootOp = some d.op := by
      obtain ⟨-, -, -, ps, tok, h4, -⟩ := h1.shape
      rw [h4]; rfl
    by_cases ho : d.op = o
    · right
      exact ⟨r, rs, [], d, D, by simp [takeRule, hroot, ho], rfl, ho, h1, h2⟩
    · rcases ih with ⟨i1, i2⟩ | ⟨q, rest, A, e, B, i1, rfl, i3, i4, i5⟩
      · left
        refine ⟨by simp [takeRule, hroot, ho, i1], ?_⟩
        intro e he
        rcases List.mem_cons.mp he with rfl | he
        · exact ho
        · exact i2 e he
      · right
        exact ⟨q, r :: rest, d :: A, e, B, by simp [takeRule, hroot, ho, i1], rfl, i3, i4, .cons h1 i5⟩

theorem Sess.names {s : Session V ρ} {D : List (FunDef V)} (h : Sess s D) : (D.map (·.op.name)).Nodup := by
  have := h.ctx.nodup
  rwa [List.map_map] at this

theorem removeNodeOp_spec {c : Ctx} {D : List (FunDef V)} {r : RewriteRule V} {d : FunDef V}
    (h : Holds c (D.map (·.op))) (hd : d ∈ D) (hr : IsDef r d) :
    ∃ c', removeNodeOp c r = .ok c' ∧ Holds c' ((D.filter fun e => e.op.name != d.op.name).map (·.op)) := by
  obtain ⟨c', h1, h2, -⟩ := h.deleteOp (u := d.op) (List.mem_map_of_mem hd)
  obtain ⟨-, -, -, ps, tok, h4, -⟩ := hr.shape
  refine ⟨c', ?_, ?_⟩
  · simp [removeNodeOp, h4, Tree.rootOp, h1]
  · rw [List.filter_map] at h2
    exact h2

theorem clearFunctions_spec (rs : List (RewriteRule V)) : ∀ (c : Ctx) (D : List (FunDef V)),
    Holds c (D.map (·.op)) → List.Forall₂ IsDef rs D →
    ∃ c', clearFunctions c rs = .ok c' ∧ Holds c' [] := by
  induction rs with
  | nil =>
    intro c D h hr
    cases hr
    exact ⟨c, rfl, h⟩
  | cons r rs ih =>
    intro c D h hr
    cases hr with
    | @cons _ d _ D h1 h2 =>
      obtain ⟨c1, g1, g2⟩ := removeNodeOp_spec h (by simp) h1
      have hn : ((d :: D).map (·.op.name)).Nodup := by
        have := h.nodup
        rwa [List.map_map] at this
      rw [filter_names hn (A := []) rfl] at g2
      obtain ⟨c2, g3, g4⟩ := ih c1 D g2 h2
      exact ⟨c2, by simp [clearFunctions, g1, g3], g4⟩

/-- `clear`. -/
theorem clearExec_all {s : Session V ρ} {D : List (FunDef V)} (h : Sess s D) :
    ∃ c, clearExec s clearCommand = .ok ({ s with ctx := c, funs := [] }, true) ∧ Holds c [] := by
  obtain ⟨c, h1, h2⟩ := clearFunctions_spec s.funs s.ctx D h.ctx h.rules
  exact ⟨c, by simp [clearExec, h1], h2⟩

/-- `clear f`. -/
theorem clearExec_one {s : Session V ρ} {D : List (FunDef V)} (h : Sess s D) {input : Str}
    (hi : input ≠ clearCommand) :
    (clearExec s input = .ok (s, false) ∧ ∀ d ∈ D, d.op.name ≠ input.drop (clearCommand.length + 1)) ∨
    ∃ s' d, clearExec s input = .ok (s', true) ∧ d ∈ D ∧ d.op.name = input.drop (clearCommand.length + 1) ∧
      s'.hist = s.hist ∧ s'.world = s.world ∧
      Sess s' (D.filter fun e => e.op.name != input.drop (clearCommand.length + 1)) := by
  obtain ⟨lk, hlk, hlk2⟩ := h.ctx.lookup (input.drop (clearCommand.length + 1)) .function
  have hfind : ∀ d ∈ D, d.op.name = input.drop (clearCommand.length + 1) → lk.map (·.2) = some d.op := by
    intro d hd hn
    rw [hlk2]
    simp only [arithEnv, List.find?_append]
    have hb := h.ctx.notBuiltin (u := d.op) (List.mem_map_of_mem hd)
    rw [← Option.map_eq_none_iff (f := (·.2)), findOp_snd] at hb
    rw [← hn, hb, Option.none_or]
    cases hf : List.find? (fun o : Op => o.name == d.op.name && o.placement == .function) (D.map (·.op)) with
    | none =>
      have := List.find?_eq_none.mp hf d.op (List.mem_map_of_mem hd)
      simp [(h.ctx.user _ (List.mem_map_of_mem hd)).placement] at this
    | some u =>
      have h1 := List.find?_some hf
      simp only [Bool.and_eq_true, beq_iff_eq] at h1
      have h2 := List.mem_of_find?_eq_some hf
      rw [List.inj_on_of_nodup_map h.ctx.nodup h2 (List.mem_map_of_mem hd) h1.1]
  cases lk with
  | none =>
    left
    refine ⟨by simp [clearExec, hi, hlk], ?_⟩
    intro d hd hn
    have := hfind d hd hn
    cases this
  | some x =>
    obtain ⟨a, o⟩ := x
    rcases takeRule_spec h.rules o with ⟨h1, h2⟩ | ⟨r, rest, A, d, B, h1, h2, h3, h4, h5⟩
    · left
      refine ⟨by simp [clearExec, hi, hlk, h1], ?_⟩
      intro d hd hn
      have := hfind d hd hn
      simp only [Option.map_some, Option.some.injEq] at this
      exact h2 d hd this.symm
    · right
      have hd : d ∈ D := by rw [h2]; simp
      have hname : d.op.name = input.drop (clearCommand.length + 1) := by
        rw [h3]
        have hx : (arithEnv (D.map (·.op))).lookup (input.drop (clearCommand.length + 1)) .function = some o := by
          rw [← hlk2]; rfl
        have := List.find?_some hx
        simp only [Bool.and_eq_true, beq_iff_eq] at this
        exact this.1
      obtain ⟨c', g1, g2⟩ := removeNodeOp_spec h.ctx hd h4
      refine ⟨{ s with ctx := c', funs := rest }, d, by simp [clearExec, hi, hlk, h1, g1], hd, hname, rfl, rfl, ?_⟩
      rw [← hname]
      refine ⟨g2, ?_, ?_, ?_⟩
      · rw [filter_names h.names h2]; exact h5
      · intro e he; exact h.arity e (List.mem_filter.mp he).1
      · intro e he; exact h.ids e (List.mem_filter.mp he).1

/-! ## Evaluation -/

theorem arithParse_spec {K : Client V ε ρ} {s s' : Session V ρ} {input : Str} {r : Option (Tree V)}
    (h : arithParse K s input = .ok (s', r)) : s'.ctx = s.ctx ∧ s'.funs = s.funs ∧ s'.hist = s.hist := by
  unfold arithParse at h
  obtain ⟨p, -, h⟩ := Out.bind_eq_ok.1 h
  cases p with
  | none =>
    simp only [Out.pure_eq, Out.ok.injEq, Prod.mk.injEq] at h
    obtain ⟨rfl, -⟩ := h
    exact ⟨rfl, rfl, rfl⟩
  | some t =>
    obtain ⟨⟨w, x⟩, -, h⟩ := Out.bind_eq_ok.1 h
    simp only [Out.pure_eq, Out.ok.injEq, Prod.mk.injEq] at h
    obtain ⟨rfl, -⟩ := h
    exact ⟨rfl, rfl, rfl⟩

theorem evaluationExec_spec {K : Client V ε ρ} {s s' : Session V ρ} {input : Str} {r : Option (Tree V)}
    (h : evaluationExec K s input = .ok (s', r)) :
    s'.ctx = s.ctx ∧ s'.funs = s.funs ∧
    s'.hist = match r with
      | some (.const v _) => s.hist ++ [v]
      | _ => s.hist := by
  unfold evaluationExec at h
  obtain ⟨⟨s1, x⟩, hp, h⟩ := Out.bind_eq_ok.1 h
  obtain ⟨h1, h2, h3⟩ := arithParse_spec hp
  cases x with
  | none =>
    simp only [Out.pure_eq, Out.ok.injEq, Prod.mk.injEq] at h
    obtain ⟨rfl, rfl⟩ := h
    exact ⟨h1, h2, h3⟩
  | some t =>
    cases t <;>
    · simp only [Out.pure_eq, Out.ok.injEq, Prod.mk.injEq] at h
      obtain ⟨rfl, rfl⟩ := h
      simp [h1, h2, h3, historyAdd]

end Verif
