import Verif.Props.ErrorMarks
import Verif.Props.EvaluationOutput
import Verif.Props.HelpOperators
import Verif.Props.TableOutput
import Verif.Props.Transcript

/-!
# Writing does not fail (C91)
-/

namespace Verif.TranscriptProps
open Verif CommandSpec TranscriptSpec ParserProps SessionProps ConsoleProps
variable {V E ρ σ : Type}

/-! ## Reports -/

theorem show_total (inter : Bool) {tokens : List Str} {k : Nat} (msg : Str) (p : Nat) (h : k ≤ tokens.length) :
    ∃ m, showErrorAtToken inter tokens k msg p = .ok m := by
  unfold showErrorAtToken
  rw [errorPos_eq _ _ _ h]
  exact ⟨_, rfl⟩

theorem parseRaw_total (inter : Bool) {c : Ctx} {strtod : Str → Option V} {inp : Str} (p : Nat) {o : Option (Tree V)}
    (h : parseEasy c strtod inp = .ok o) :
    ∃ x, parseRawSays inter c strtod inp p = .ok x ∧ x.toOption = o.map fun t => (tokenize c.keywords inp, t) := by
  unfold parseEasy at h
  unfold parseRawSays
  have e : parseInput c strtod inp = (tokenize c.keywords inp, (parseInput c strtod inp).2) := rfl
  rw [e]
  cases hp : (parseInput c strtod inp).2 with
  | ok t =>
    rw [hp] at h
    cases h
    exact ⟨_, rfl, rfl⟩
  | okUninit => rw [hp] at h; cases h
  | ub => rw [hp] at h; cases h
  | err pe k =>
    rw [hp] at h
    cases h
    obtain ⟨m, hm⟩ := show_total inter (perrToString pe) p (C09_error_token c.env strtod _ pe k hp).1
    refine ⟨.error m, ?_, rfl⟩
    dsimp only
    rw [hm]
    rfl

theorem simplify_total_ok (inter : Bool) {K : Client V (E × Nat) ρ} (message : E → Str) {funs : List (RewriteRule V)} {hist : List V}
    {w w' : ρ} (tokens : List Str) {t u : Tree V} (p : Nat) (h : arithSimplify K funs hist w t = .ok (w', some u)) :
    simplifySays inter K message funs hist w tokens t p = .ok (w', .ok u) := by
  unfold arithSimplify at h
  unfold simplifySays
  obtain ⟨⟨t', n⟩, h1, h⟩ := Out.bind_eq_ok.1 h
  obtain ⟨⟨w2, r⟩, h2, h⟩ := Out.bind_eq_ok.1 h
  rw [h1, Out.bind_ok]
  dsimp only
  rw [h2, Out.bind_ok]
  cases r with
  | ok v =>
    cases h
    rfl
  | error x => simp at h

theorem simplify_total (inter : Bool) {K : Client V (E × Nat) ρ} (hE : ErrTok K) (hK : SimpKeeps K) (hf : K.fuel < sizeMax)
    (message : E → Str) {C : Str → Prop} {s : Session V ρ} (hs : Reach K TidyDef C s) {inp : Str} {t : Tree V}
    (hp : parseEasy s.ctx K.strtod inp = .ok (some t)) (p : Nat) {w' : ρ} {o : Option (Tree V)}
    (h : arithSimplify K s.funs s.hist s.world t = .ok (w', o)) :
    ∃ x, simplifySays inter K message s.funs s.hist s.world (tokenize s.ctx.keywords inp) t p = .ok (w', x) ∧ x.toOption = o := by
  cases o with
  | some u => exact ⟨_, simplify_total_ok inter message _ p h, rfl⟩
  | none =>
    have htidy := hs.tidy hK hf
    obtain ⟨D, hD⟩ := hs.sess
    have hpt := parseEasy_ok.1 hp
    have hk := parse_known hD.ctx hD.arity hp
    unfold arithSimplify at h
    unfold simplifySays
    obtain ⟨⟨t', n⟩, h1, h⟩ := Out.bind_eq_ok.1 h
    obtain ⟨⟨w2, r⟩, h2, h⟩ := Out.bind_eq_ok.1 h
    have h1' : applyRuleset K.eqV (fun _ => true) s.funs sizeMax K.fuel t = .ok (some (t', n)) := by
      revert h1
      cases applyRuleset K.eqV (fun _ => true) s.funs sizeMax K.fuel t with
      | ok x => cases x <;> simp [Out.ofFuel]
      | defect => simp [Out.ofFuel]
      | ub => simp [Out.ofFuel]
    obtain ⟨-, h3⟩ := expand_ok (hD.table htidy) hD.rules _ _ sizeMax K.fuel 0 t t' n hk (by omega) h1'
    have hgood : ∀ r ∈ s.funs, GoodRule (fun _ _ => True) r := by
      intro r hr
      obtain ⟨d, -, hd⟩ := forall2_left hD.rules hr
      exact IsDef.good hd
    rw [h1, Out.bind_ok]
    dsimp only
    rw [h2, Out.bind_ok]
    cases r with
    | ok u => simp at h
    | error x =>
      obtain ⟨e, k⟩ := x
      have hkt : t.HasTok k :=
        within_hasTok (applyLoop_within hgood _ _ _ _ _ (within_hasTok_self t) h1') (hE _ _ _ _ _ _ h3 h2)
      obtain ⟨tok, htok⟩ := within_hasTok (C83_nodes _ _ _ _ hpt).within hkt
      obtain ⟨m, hm⟩ := show_total inter (message e) p (Nat.le_of_lt (List.getElem?_eq_some_iff.1 htok).1)
      cases h
      refine ⟨.error m, ?_, rfl⟩
      dsimp only
      rw [hm]
      rfl

theorem parse_total (inter : Bool) {K : Client V (E × Nat) ρ} (hE : ErrTok K) (hK : SimpKeeps K) (hf : K.fuel < sizeMax)
    (message : E → Str) {C : Str → Prop} {s s' : Session V ρ} (hs : Reach K TidyDef C s) {inp : Str} (p : Nat) {o : Option (Tree V)}
    (h : arithParse K s inp = .ok (s', o)) :
    ∃ x, parseSays inter K message s inp p = .ok (s', x) ∧ x.toOption = o ∧ Reach K TidyDef C s' := by
  unfold arithParse at h
  unfold parseSays
  obtain ⟨y, h1, h⟩ := Out.bind_eq_ok.1 h
  obtain ⟨x, h2, h3⟩ := parseRaw_total inter p (Out.of_eq_ok.1 h1)
  rw [h2, Out.of_ok, Out.bind_ok]
  cases y with
  | none =>
    cases h
    cases x with
    | ok z => simp [Except.toOption] at h3
    | error m => exact ⟨_, rfl, rfl, hs⟩
  | some t =>
    obtain ⟨⟨w, r⟩, h4, h⟩ := Out.bind_eq_ok.1 h
    cases h
    cases x with
    | error m => simp [Except.toOption] at h3
    | ok z =>
      simp only [Except.toOption, Option.map_some, Option.some.injEq] at h3
      subst h3
      obtain ⟨x, h5, h6⟩ := simplify_total inter hE hK hf message hs (Out.of_eq_ok.1 h1) p h4
      dsimp only
      rw [h5]
      exact ⟨x, rfl, h6, .outside s.hist w hs⟩

/-! ## Commands -/

theorem evaluation_total (inter : Bool) {K : Client V (E × Nat) ρ} (hE : ErrTok K) (hK : SimpKeeps K) (hf : K.fuel < sizeMax)
    (T : Texts V E ρ) {C : Str → Prop} {s s' : Session V ρ} (hs : Reach K TidyDef C s) {input : Str} {o : Option (Tree V)}
    (h : evaluationExec K s input = .ok (s', o)) : ∃ said, evaluationSays inter K T s input = .ok (s', o.isSome, said) := by
  have h9 := EvaluationProps.C90_prints hK hf hs inter T.general input
  rw [h] at h9
  unfold evaluationExec at h
  unfold evaluationSays
  obtain ⟨⟨s1, y⟩, h1, h⟩ := Out.bind_eq_ok.1 h
  obtain ⟨x, h2, h3, -⟩ := parse_total inter hE hK hf T.message hs 0 h1
  rw [h2, Out.bind_ok]
  subst h3
  cases x with
  | error m =>
    cases h
    exact ⟨_, rfl⟩
  | ok t =>
    cases t with
    | const v i =>
      cases h
      obtain ⟨text, h4, -⟩ := h9
      dsimp only
      rw [h4]
      exact ⟨_, rfl⟩
    | var n x i =>
      cases h
      obtain ⟨text, h4, -⟩ := h9
      dsimp only
      rw [h4]
      exact ⟨_, rfl⟩
    | op o cs i =>
      cases h
      obtain ⟨text, h4, -⟩ := h9
      dsimp only
      rw [h4]
      exact ⟨_, rfl⟩

theorem clear_total (inter : Bool) {s s' : Session V ρ} {input : Str} {ok : Bool} (h : clearExec s input = .ok (s', ok)) :
    ∃ said, clearSays inter s input = .ok (s', ok, said) := by
  unfold clearExec at h
  unfold clearSays
  split at h
  · rename_i hc
    rw [if_pos hc]
    obtain ⟨c, h1, h⟩ := Res.bind_eq_ok.1 h
    rw [h1]
    cases h
    exact ⟨_, rfl⟩
  · rename_i hc
    rw [if_neg hc]
    obtain ⟨o, h1, h⟩ := Res.bind_eq_ok.1 h
    dsimp only
    rw [h1]
    match o, h with
    | none, h =>
      cases h
      exact ⟨_, rfl⟩
    | some (a, o), h =>
      simp only [Res.bind_ok]
      dsimp only at h
      cases ht : takeRule o s.funs with
      | none =>
        rw [ht] at h
        cases h
        exact ⟨_, rfl⟩
      | some q =>
        rw [ht] at h
        obtain ⟨c, h2, h⟩ := Res.bind_eq_ok.1 h
        simp only [h2, Res.bind_ok]
        cases h
        exact ⟨_, rfl⟩

theorem fail_total {s s' : Session V ρ} {c : Ctx} {w : ρ} {name : Str} (m : Str) {ok : Bool}
    (h : definitionFail s c w name = .ok (s', ok)) : ∃ said, failSays s c w name m = .ok (s', ok, said) := by
  unfold failSays
  rw [h]
  exact ⟨_, rfl⟩

theorem right_total (inter : Bool) {K : Client V (E × Nat) ρ} (message : E → Str) {s s' : Session V ρ} {c : Ctx} {name right : Str}
    (offset : Nat) {left : Tree V} {newOp : Op} (isC : Bool) {ok : Bool}
    (h : addFunctionRight K s c name right left newOp = .ok (s', ok)) :
    ∃ said, rightSays inter K message s c name right offset left newOp isC = .ok (s', ok, said) := by
  unfold addFunctionRight at h
  unfold rightSays
  obtain ⟨y, h1, h⟩ := Out.bind_eq_ok.1 h
  obtain ⟨x, h2, h3⟩ := parseRaw_total inter offset (Out.of_eq_ok.1 h1)
  rw [h2, Out.of_ok, Out.bind_ok]
  cases y with
  | none =>
    cases x with
    | ok z => simp [Except.toOption] at h3
    | error m => exact fail_total m h
  | some t =>
    cases x with
    | error m => simp [Except.toOption] at h3
    | ok z =>
      simp only [Except.toOption, Option.map_some, Option.some.injEq] at h3
      subst h3
      dsimp only at h ⊢
      split at h
      · rename_i hr
        rw [if_pos hr]
        exact fail_total _ h
      · rename_i hr
        rw [if_neg hr]
        obtain ⟨⟨w, r⟩, h4, h⟩ := Out.bind_eq_ok.1 h
        cases r with
        | none => cases h
        | some body =>
          rw [simplify_total_ok inter message _ offset h4, Out.bind_ok]
          dsimp only at h ⊢
          cases hp : getPattern left [] with
          | error e => rw [hp] at h; cases h
          | ok pattern =>
            rw [hp] at h
            dsimp only at h ⊢
            cases hg : getRule pattern body with
            | none =>
              rw [hg] at h
              exact fail_total _ h
            | some rule =>
              rw [hg] at h
              cases h
              exact ⟨_, rfl⟩

theorem left_total {t : Tree V} {o : Option (Tree V)} (h : leftChecks t = o) : (leftSays t).toOption = o := by
  rw [left_sound, h]

theorem add_total (inter : Bool) {K : Client V (E × Nat) ρ} (message : E → Str) {s s' : Session V ρ} {name left right : Str}
    {isC ok : Bool} (h : addFunction K s name left right isC = .ok (s', ok)) :
    ∃ said, addSays inter K message s name left right isC = .ok (s', ok, said) := by
  unfold addFunction at h
  unfold addSays
  obtain ⟨o, h1, h⟩ := Out.bind_eq_ok.1 h
  rw [h1, Out.bind_ok]
  match o, h with
  | some (a, o), h =>
    cases h
    exact ⟨_, rfl⟩
  | none, h =>
    obtain ⟨⟨c1, a1⟩, h2, h⟩ := Out.bind_eq_ok.1 h
    obtain ⟨y, h3, h⟩ := Out.bind_eq_ok.1 h
    obtain ⟨x, h4, h5⟩ := parseRaw_total inter 0 (Out.of_eq_ok.1 h3)
    dsimp only at h ⊢
    rw [h2, Out.bind_ok]
    dsimp only
    rw [h4, Out.of_ok, Out.bind_ok]
    cases y with
    | none =>
      cases x with
      | ok z => simp [Except.toOption] at h5
      | error m => exact fail_total m h
    | some lt =>
      cases x with
      | error m => simp [Except.toOption] at h5
      | ok z =>
        simp only [Except.toOption, Option.map_some, Option.some.injEq] at h5
        subst h5
        dsimp only at h ⊢
        have hl := left_sound lt
        cases hc : leftSays lt with
        | error m =>
          rw [hc] at hl
          rw [← hl] at h
          exact fail_total _ h
        | ok lt' =>
          rw [hc] at hl
          rw [← hl] at h
          simp only [Except.toOption] at h
          dsimp only
          split at h
          · rename_i hi
            rw [if_pos hi]
            cases a1 with
            | none => cases h
            | some a =>
              obtain ⟨newOp, h6, h⟩ := Out.bind_eq_ok.1 h
              simp only [h6, Out.bind_ok]
              exact right_total inter message _ isC h
          · rename_i hi
            rw [if_neg hi]
            obtain ⟨⟨c2, x2⟩, h6, h⟩ := Out.bind_eq_ok.1 h
            obtain ⟨⟨c3, a3⟩, h7, h⟩ := Out.bind_eq_ok.1 h
            simp only [h6, Out.bind_ok, h7]
            cases a3 with
            | none => cases h
            | some a =>
              obtain ⟨newOp, h8, h⟩ := Out.bind_eq_ok.1 h
              simp only [h8, Out.bind_ok]
              exact right_total inter message _ isC h

theorem definition_total (inter : Bool) {K : Client V (E × Nat) ρ} (message : E → Str) {s s' : Session V ρ} {input : Str}
    {ok : Bool} (h : definitionExec K s input = .ok (s', ok)) :
    ∃ said, definitionSays inter K message s input = .ok (s', ok, said) := by
  unfold definitionExec at h
  unfold definitionSays
  split at h
  · cases h
  · rename_i k hk
    rw [hk]
    dsimp only at h ⊢
    split at h
    · rename_i he
      rw [he]
      cases h
      exact ⟨_, rfl⟩
    · rename_i name more he
      rw [he]
      dsimp only
      split at h
      · rename_i hl
        rw [if_pos hl]
        cases h
        exact ⟨_, rfl⟩
      · rename_i hl
        rw [if_neg hl]
        exact add_total inter message h

/-! ## Tables -/

theorem parseAll_total (inter : Bool) {K : Client V (E × Nat) ρ} (hE : ErrTok K) (hK : SimpKeeps K) (hf : K.fuel < sizeMax)
    (message : E → Str) {C : Str → Prop} (ps : List TableArg) : ∀ {s s' : Session V ρ} (_ : Reach K TidyDef C s) {o : Option (List (Tree V))},
    parseAll K s (ps.map (·.2)) = .ok (s', o) →
    ∃ x, parseAllSays inter K message s ps = .ok (s', x) ∧ x.toOption = o ∧ Reach K TidyDef C s' := by
  induction ps with
  | nil =>
    intro s s' hs o h
    cases h
    exact ⟨_, rfl, rfl, hs⟩
  | cons p ps ih =>
    intro s s' hs o h
    rw [List.map_cons, parseAll] at h
    rw [parseAllSays]
    obtain ⟨⟨s1, y⟩, h1, h⟩ := Out.bind_eq_ok.1 h
    obtain ⟨x, h2, h3, hs1⟩ := parse_total inter hE hK hf message hs p.1 h1
    rw [h2, Out.bind_ok]
    subst h3
    cases x with
    | error m =>
      cases h
      exact ⟨_, rfl, rfl, hs1⟩
    | ok u =>
      obtain ⟨⟨s2, us⟩, h4, h⟩ := Out.bind_eq_ok.1 h
      obtain ⟨z, h5, h6, hs2⟩ := ih hs1 h4
      dsimp only
      rw [h5, Out.bind_ok]
      subst h6
      cases z <;> (cases h; exact ⟨_, rfl, rfl, hs2⟩)

theorem done_total {ε : Type} {K : Program V ε ρ} {s s' : Session V ρ} {expr : Tree V} {var : Option Str} {start stop step : V}
    {fold : Option (Tree V × V)} {o : Option (TableOut V)} (h : tableShow K s expr var start stop step fold = .ok (s', o)) :
    ∃ x : Except Str (TableOut V), (do let y ← tableShow K s expr var start stop step fold; pure (tableDone y)) = .ok (s', x) ∧
      x.toOption = o := by
  rw [h, Out.bind_ok]
  refine ⟨_, rfl, ?_⟩
  cases o <;> rfl

theorem fold_total (inter : Bool) {K : Program V (E × Nat) ρ} (hE : ErrTok K.toClient) (hK : SimpKeeps K.toClient) (hf : K.fuel < sizeMax)
    (message : E → Str) {C : Str → Prop} {s s' : Session V ρ} (hs : Reach K.toClient TidyDef C s) {expr : Tree V}
    {var : Option Str} {start stop step : V} {more : List TableArg} (hm : more.length = 0 ∨ more.length = 2) {o : Option (TableOut V)}
    (h : tableFold K s expr var start stop step (more.map (·.2)) = .ok (s', o)) :
    ∃ x, foldSays inter K message s expr var start stop step more = .ok (s', x) ∧ x.toOption = o := by
  match more, hm, h with
  | [], _, h =>
    rw [foldSays]
    exact done_total h
  | [pf, pi], _, h =>
    rw [foldSays.eq_2 _ _ _ _ _ _ _ _ _ _ (by simp)]
    rw [tableFold.eq_2 _ _ _ _ _ _ _ _ (by simp)] at h
    obtain ⟨⟨s1, y⟩, h1, h⟩ := Out.bind_eq_ok.1 h
    obtain ⟨x, h2, h3, -⟩ := parseAll_total inter hE hK hf message [pf, pi] hs h1
    obtain ⟨-, -, h4⟩ := parseAll_sound h2
    rw [h2, Out.bind_ok]
    subst h3
    cases x with
    | error m =>
      cases h
      exact ⟨_, rfl, rfl⟩
    | ok ts =>
      have hl := h4 ts rfl
      match ts, h, hl with
      | [f, i], h, _ =>
        simp only [Except.toOption] at h ⊢
        split at h
        · rename_i hc
          rw [if_pos hc]
          cases h
          exact ⟨_, rfl, rfl⟩
        · rename_i hc
          rw [if_neg hc]
          split at h
          · rename_i hv
            have : notConstant inter pi i = some (reportErrorAt inter pi.1 pi.2.length "Error: Not constant".toList) := if_pos hv
            rw [this]
            cases h
            exact ⟨_, rfl, rfl⟩
          · rename_i hv
            have : notConstant inter pi i = none := if_neg hv
            rw [this]
            obtain ⟨⟨w, a⟩, h5, h⟩ := Out.bind_eq_ok.1 h
            dsimp only
            rw [h5, Out.bind_ok]
            exact done_total h
      | [], _, hl => simp at hl
      | [_], _, hl => simp at hl
      | _ :: _ :: _ :: _, _, hl => simp at hl
  | [_], hm, _ => simp at hm
  | _ :: _ :: _ :: _, hm, _ => simp at hm

theorem notConstant_eq (inter : Bool) (p : TableArg) (t : Tree V) :
    (countVars t = 0 ∧ notConstant inter p t = none) ∨ (countVars t ≠ 0 ∧ ∃ m, notConstant inter p t = some m) := by
  unfold notConstant
  by_cases h : countVars t = 0
  · exact .inl ⟨h, by rw [if_neg (by simp [h])]⟩
  · exact .inr ⟨h, _, by rw [if_pos h]⟩

theorem bounds_total (inter : Bool) {K : Program V (E × Nat) ρ} (hE : ErrTok K.toClient) (hK : SimpKeeps K.toClient) (hf : K.fuel < sizeMax)
    (message : E → Str) {C : Str → Prop} {s s' : Session V ρ} (hs : Reach K.toClient TidyDef C s) {expr : Tree V}
    {var : Option Str} {pa pb pc : TableArg} {more : List TableArg} (hm : more.length = 0 ∨ more.length = 2) {o : Option (TableOut V)}
    (h : tableBounds K s expr var [pa.2, pb.2, pc.2] (more.map (·.2)) = .ok (s', o)) :
    ∃ x, boundsSays inter K message s expr var pa pb pc more = .ok (s', x) ∧ x.toOption = o := by
  unfold tableBounds at h
  unfold boundsSays
  obtain ⟨⟨s1, y⟩, h1, h⟩ := Out.bind_eq_ok.1 h
  obtain ⟨x, h2, h3, hs1⟩ := parseAll_total inter hE hK hf message [pa, pb, pc] hs h1
  obtain ⟨-, -, h4⟩ := parseAll_sound h2
  rw [h2, Out.bind_ok]
  subst h3
  cases x with
  | error m =>
    cases h
    exact ⟨_, rfl, rfl⟩
  | ok ts =>
    have hl := h4 ts rfl
    match ts, h, hl with
    | [a, b, c], h, _ =>
      simp only [Except.toOption] at h ⊢
      rcases notConstant_eq inter pa a with ⟨e1, e2⟩ | ⟨e1, m, e2⟩
      · rcases notConstant_eq inter pb b with ⟨f1, f2⟩ | ⟨f1, m, f2⟩
        · rcases notConstant_eq inter pc c with ⟨g1, g2⟩ | ⟨g1, m, g2⟩
          · rw [if_neg (by simp [e1, f1, g1])] at h
            rw [e2, f2, g2]
            obtain ⟨⟨w1, v1⟩, h5, h⟩ := Out.bind_eq_ok.1 h
            obtain ⟨⟨w2, v2⟩, h6, h⟩ := Out.bind_eq_ok.1 h
            obtain ⟨⟨w3, v3⟩, h7, h⟩ := Out.bind_eq_ok.1 h
            simp only [h5, h6, h7, Out.bind_ok]
            dsimp only at h
            split at h
            · rename_i hz
              rw [if_pos hz]
              cases h
              exact ⟨_, rfl, rfl⟩
            · rename_i hz
              rw [if_neg hz]
              exact fold_total inter hE hK hf message (.outside s1.hist w3 hs1) hm h
          · rw [if_pos (by simp [g1])] at h
            rw [e2, f2, g2]
            cases h
            exact ⟨_, rfl, rfl⟩
        · rw [if_pos (by simp [f1])] at h
          rw [e2, f2]
          cases h
          exact ⟨_, rfl, rfl⟩
      · rw [if_pos (by simp [e1])] at h
        rw [e2]
        cases h
        exact ⟨_, rfl, rfl⟩
    | [], _, hl => simp at hl
    | [_], _, hl => simp at hl
    | [_, _], _, hl => simp at hl
    | _ :: _ :: _ :: _ :: _, _, hl => simp at hl

theorem expr_total (inter : Bool) {K : Program V (E × Nat) ρ} (hE : ErrTok K.toClient) (hK : SimpKeeps K.toClient) (hf : K.fuel < sizeMax)
    (T : Texts V E ρ) {C : Str → Prop} {s s' : Session V ρ} (hs : Reach K.toClient TidyDef C s) {ps : List TableArg}
    (hl : ps.length = 4 ∨ ps.length = 6) {o : Option Str}
    (h : tablePrint K inter T.fixed T.general s (ps.map (·.2)) = .ok (s', o)) :
    ∃ said, exprSays inter K T s ps = .ok (s', o.isSome, said) := by
  match ps, hl, h with
  | e :: a :: b :: c :: more, hl, h =>
    have hm : more.length = 0 ∨ more.length = 2 := by simp at hl; exact hl.imp (by simp) (by omega)
    rw [exprSays]
    simp only [List.map_cons, tablePrint] at h
    obtain ⟨y, h1, h⟩ := Out.bind_eq_ok.1 h
    obtain ⟨x, h2, h3⟩ := parseRaw_total inter e.1 (Out.of_eq_ok.1 h1)
    rw [h2, Out.of_ok, Out.bind_ok]
    cases y with
    | none =>
      cases x with
      | ok z => simp [Except.toOption] at h3
      | error m =>
        cases h
        exact ⟨_, rfl⟩
    | some raw =>
      cases x with
      | error m => simp [Except.toOption] at h3
      | ok z =>
        simp only [Except.toOption, Option.map_some, Option.some.injEq] at h3
        subst h3
        obtain ⟨title, h4, h⟩ := Out.bind_eq_ok.1 h
        obtain ⟨⟨s1, r⟩, h5, h⟩ := Out.bind_eq_ok.1 h
        unfold arithParse at h5
        rw [h1, Out.bind_ok] at h5
        obtain ⟨⟨w, r'⟩, h5, h5'⟩ := Out.bind_eq_ok.1 h5
        cases h5'
        obtain ⟨x, h6, h7⟩ := simplify_total inter hE hK hf T.message hs (Out.of_eq_ok.1 h1) e.1 h5
        dsimp only
        rw [h4, Out.bind_ok]
        simp only [h6, Out.bind_ok]
        subst h7
        cases x with
        | error m =>
          cases h
          exact ⟨_, rfl⟩
        | ok t =>
          simp only [Except.toOption] at h ⊢
          split at h
          · rename_i hc
            rw [if_pos hc]
            cases h
            exact ⟨_, rfl⟩
          · rename_i hc
            rw [if_neg hc]
            obtain ⟨⟨s2, y⟩, h8, h⟩ := Out.bind_eq_ok.1 h
            obtain ⟨x, h9, h10⟩ := bounds_total inter hE hK hf T.message (.outside s.hist w hs) hm h8
            simp only [h9, Out.bind_ok]
            subst h10
            cases x with
            | error m =>
              cases h
              exact ⟨_, rfl⟩
            | ok out =>
              obtain ⟨text, h11, h⟩ := Out.bind_eq_ok.1 h
              dsimp only
              rw [h11]
              cases h
              exact ⟨_, rfl⟩
  | [], hl, _ => simp at hl
  | [_], hl, _ => simp at hl
  | [_, _], hl, _ => simp at hl
  | [_, _, _], hl, _ => simp at hl

theorem stripAll_length {m m' : List Char} {ds os : List Nat} (h : stripAll m ds = .ok (m', os)) : os.length = ds.length := by
  induction ds generalizing m m' os with
  | nil => cases h; rfl
  | cons d ds ih =>
    rw [stripAll] at h
    obtain ⟨⟨m1, o⟩, -, h⟩ := Res.bind_eq_ok.1 h
    obtain ⟨⟨m2, os'⟩, h2, h⟩ := Res.bind_eq_ok.1 h
    cases h
    simp [ih h2]

theorem table_total (inter : Bool) {K : Program V (E × Nat) ρ} (hE : ErrTok K.toClient) (hK : SimpKeeps K.toClient) (hf : K.fuel < sizeMax)
    (T : Texts V E ρ) {C : Str → Prop} {s s' : Session V ρ} (hs : Reach K.toClient TidyDef C s) {input : Str} {o : Option Str}
    (h : tableExecText K inter T.fixed T.general s input = .ok (s', o)) :
    ∃ said, tableSays inter K T s input = .ok (s', o.isSome, said) := by
  unfold tableExecText at h
  unfold tableSays
  dsimp only at h ⊢
  split at h
  · rename_i hl
    rw [if_pos hl]
    cases h
    exact ⟨_, rfl⟩
  · rename_i hl
    rw [if_neg hl]
    obtain ⟨⟨m, os⟩, h1, h⟩ := Out.bind_eq_ok.1 h
    have hlen := stripAll_length (Out.of_eq_ok.1 h1)
    have e : os.map (cstrAt m) = (os.map fun o => (o, cstrAt m o)).map (·.2) := by simp
    dsimp only at h
    rw [e] at h
    rw [h1, Out.bind_ok]
    exact expr_total inter hE hK hf T hs (by simp only [List.length_map]; omega) h

/-! ## All commands -/

/-- What is assumed of the program: `simplify` yields operators of the calculator and usual names and reports errors at
operators or constants; `printf` writes printable characters. -/
structure Decent (K : Program V (E × Nat) ρ) (T : Texts V E ρ) : Prop where
  errors : ErrTok K.toClient
  keeps : SimpKeeps K.toClient
  words : Verif.SimpWords K.toClient
  fuel : K.fuel < sizeMax
  fixed : ∀ v, DrawingSpec.Plain (T.fixed v)
  general : ∀ v, DrawingSpec.Plain (T.general v)

/-- Sessions of gentle inputs. -/
abbrev Calm (K : Client V ε ρ) : Session V ρ → Prop := Reach K (fun _ input => '[' ∉ input) fun input => input = "clear".toList

theorem calm_returned (K : Program V (E × Nat) ρ)
    (hfiles : ∀ p text, K.files p = some text → ∃ lines, TextOf lines text ∧ ∀ l ∈ lines, Gentle l) (d : Nat) :
    ∀ (s t : Session V ρ) (i : Str) (ok : Bool), Calm K.toClient s → Gentle i → execCommand K d s i = .ok (.returned t ok) →
      Calm K.toClient t := by
  induction d with
  | zero => intro s t i ok _ _ h; cases h
  | succ d ih =>
    have hlines : ∀ (lines : List Str) (s t : Session V ρ) (res ok : Bool), (∀ l ∈ lines, Gentle l) → Calm K.toClient s →
        processLines (execCommand K d) (lines.map fun l => l ++ ['\n']) s res = .ok (.returned t ok) → Calm K.toClient t := by
      intro lines
      induction lines with
      | nil => intro s t res ok _ hs h; cases h; exact hs
      | cons l ls ih' =>
        intro s t res ok hg hs h
        have hl := hg l (by simp)
        rw [List.map_cons, processLines, inputOf_line hl.1] at h
        simp only [Out.of_ok, Out.bind_ok] at h
        have hg := fun x hx => hg x (List.mem_cons_of_mem _ hx)
        split at h
        · cases h
        · split at h
          · exact ih' _ _ _ _ hg hs h
          · obtain ⟨f, h1, h2⟩ := Out.bind_eq_ok.1 h
            cases f with
            | exited => cases h2
            | returned s' b => exact ih' _ _ _ _ hg (ih _ _ _ _ hs hl h1) h2
    intro s t i ok hs hi h
    rw [execCommand] at h
    cases hc : firstCommand i commandTable with
    | none => rw [hc] at h; cases h; exact hs
    | some c =>
      rw [hc] at h
      have hx := (CommandProps.C47_exact i c).1 hc
      have hl := hx.1
      simp only at h
      cases c with
      | help => cases h; exact hs
      | table =>
        obtain ⟨⟨s', r⟩, h1, h2⟩ := Out.bind_eq_ok.1 h
        cases h2
        obtain ⟨w, rfl⟩ := CommandProps.tableExec_same h1
        exact .outside _ _ hs
      | definition =>
        obtain ⟨⟨s', r⟩, h1, h2⟩ := Out.bind_eq_ok.1 h
        cases h2
        exact .define hs (hi.2.1 hl) ((CommandProps.check_looks i).2.2.1.2 hl) h1
      | clear =>
        obtain ⟨⟨s', r⟩, h1, h2⟩ := Out.bind_eq_ok.1 h
        cases h2
        refine .clear hs ?_ ((CommandProps.check_looks i).2.2.2.1.2 hl) (Out.of_eq_ok.1 h1)
        rcases hi.2.2 hl with he | he
        · exact absurd he (hx.2 .definition (by simp [before]))
        · exact he
      | load =>
        simp only [runCommand, loadExec] at h
        split at h
        · obtain ⟨⟨w, b⟩, h1, h2⟩ := Out.bind_eq_ok.1 h
          cases h2
          exact .outside s.hist w hs
        · split at h
          · cases h; exact hs
          · rename_i text hf
            obtain ⟨f, h1, h2⟩ := Out.bind_eq_ok.1 h
            obtain ⟨lines, ht, hg⟩ := hfiles _ _ hf
            rw [Verif.processInput_text _ _ ht] at h1
            cases f with
            | exited => cases h2
            | returned s' b =>
              cases h2
              exact hlines _ _ _ _ _ hg hs h1
      | evaluation =>
        obtain ⟨⟨s', r⟩, h1, h2⟩ := Out.bind_eq_ok.1 h
        cases h2
        exact .evaluate hs h1

theorem help_total {K : Client V ε ρ} (hK : SimpKeeps K) (hf : K.fuel < sizeMax) {C : Str → Prop} {s : Session V ρ}
    (hs : Reach K TidyDef C s) (fmt : V → Str) (hfmt : ∀ v, DrawingSpec.Plain (fmt v)) (A : Arith V) (notice : Str) (rnd fuel : Nat)
    (code : Help.Code) : ∃ text, Help.exec A fmt notice rnd fuel s code = .ok text := by
  cases code with
  | short =>
    obtain ⟨t, f, h, -⟩ := HelpProps.C87_help K hK hf C s hs fmt hfmt
    exact ⟨_, h⟩
  | license => exact ⟨_, rfl⟩
  | operators =>
    refine ⟨_, HelpProps.C87_operators K s (hs.mono (fun _ _ _ => trivial) fun _ _ => trivial) fmt A notice rnd fuel fun v => ?_⟩
    exact ⟨fun e => absurd ((hfmt v).2 _ e).1 (by decide), fun e => absurd ((hfmt v).2 _ e).1 (by decide)⟩

/-- A single command that does not load anything. -/
theorem single_total {K : Program V (E × Nat) ρ} {T : Texts V E ρ} (hD : Decent K T) (H : HelpEval V) (d : Nat) (inter : Bool)
    {C : Str → Prop} {s : Session V ρ} (hs : Reach K.toClient TidyDef C s) {input : Str} (hn : nul ∉ input)
    (hl : firstCommand input commandTable ≠ some .load) {f : Fate (Session V ρ)} (h : execCommand K (d + 1) s input = .ok f) :
    ∃ said, execSays K T H (d + 1) inter s input = .ok (f, said) := by
  rw [execCommand] at h
  rw [execSays]
  cases hc : firstCommand input commandTable with
  | none =>
    rw [hc] at h
    cases h
    exact ⟨_, rfl⟩
  | some c =>
    rw [hc] at h hl
    have hlook := ((CommandProps.C47_exact input c).1 hc).1
    dsimp only at h ⊢
    cases c with
    | load => exact absurd rfl hl
    | help =>
      cases h
      rw [runSays]
      cases hk : Help.check input with
      | none =>
        simp only [Looks, List.mem_cons, List.not_mem_nil, or_false] at hlook
        rcases hlook with rfl | rfl | rfl <;> exact absurd hk (by decide)
      | some code =>
        obtain ⟨text, ht⟩ := help_total hD.keeps hD.fuel hs T.general hD.general H.arith T.notice H.rnd H.fuel code
        dsimp only
        rw [ht]
        exact ⟨_, rfl⟩
    | table =>
      obtain ⟨⟨s1, o⟩, h1, h⟩ := Out.bind_eq_ok.1 h
      cases h
      obtain ⟨rest, rfl⟩ : "table ".toList <+: input := hlook
      have h2 := TableProps.C88_table hD.keeps hD.words hD.fuel s hs inter T.fixed T.general hD.fixed hD.general rest
        fun e => hn (by simp [e])
      rw [h1] at h2
      have h3 : ∃ o', tableExecText K inter T.fixed T.general s ("table ".toList ++ rest) = .ok (s1, o') ∧ o'.isSome = o.isSome := by
        cases o with
        | none => exact ⟨none, h2, rfl⟩
        | some out =>
          obtain ⟨_, _, _, _, _, _, _, -, -, -, -, -, h2⟩ := h2
          exact ⟨_, h2, rfl⟩
      obtain ⟨o', h3, h4⟩ := h3
      obtain ⟨said, h5⟩ := table_total inter hD.errors hD.keeps hD.fuel T hs h3
      rw [runSays, h5, h4]
      exact ⟨said, rfl⟩
    | definition =>
      obtain ⟨⟨s1, ok⟩, h1, h⟩ := Out.bind_eq_ok.1 h
      cases h
      obtain ⟨said, h2⟩ := definition_total inter T.message h1
      rw [runSays, h2]
      exact ⟨said, rfl⟩
    | clear =>
      obtain ⟨⟨s1, ok⟩, h1, h⟩ := Out.bind_eq_ok.1 h
      cases h
      obtain ⟨said, h2⟩ := clear_total inter (Out.of_eq_ok.1 h1)
      rw [runSays, h2]
      exact ⟨said, rfl⟩
    | evaluation =>
      obtain ⟨⟨s1, o⟩, h1, h⟩ := Out.bind_eq_ok.1 h
      cases h
      obtain ⟨said, h2⟩ := evaluation_total inter hD.errors hD.keeps hD.fuel T hs h1
      rw [runSays, h2]
      exact ⟨said, rfl⟩

/-- **C91.** Writing never fails: what a command does without output it does with output.  (The files consist of gentle inputs.) -/
theorem C91_total (K : Program V (E × Nat) ρ) (T : Texts V E ρ) (hD : Decent K T) (H : HelpEval V)
    (hfiles : ∀ p text, K.files p = some text → ∃ lines, TextOf lines text ∧ ∀ l ∈ lines, Gentle l) (d : Nat) :
    ∀ (inter : Bool) (s : Session V ρ) (input : Str) (f : Fate (Session V ρ)), Calm K.toClient s → Gentle input →
      (execCommand K d s input = .ok f ↔ ∃ said, execSays K T H d inter s input = .ok (f, said)) := by
  suffices h : ∀ (inter : Bool) (s : Session V ρ) (input : Str) (f : Fate (Session V ρ)), Calm K.toClient s → Gentle input →
      execCommand K d s input = .ok f → ∃ said, execSays K T H d inter s input = .ok (f, said) by
    intro inter s input f hs hi
    exact ⟨h inter s input f hs hi, fun ⟨said, h⟩ => C91_same K T H d inter s input f said h⟩
  induction d with
  | zero => intro inter s input f _ _ h; cases h
  | succ d ih =>
    have hlines : ∀ (lines : List Str) (s : Session V ρ) (res : Bool) (before : Said) (f : Fate (Session V ρ)), (∀ l ∈ lines, Gentle l) →
        Calm K.toClient s → processLines (execCommand K d) (lines.map fun l => l ++ ['\n']) s res = .ok f →
        ∃ said, linesSay false (execSays K T H d false) (lines.map fun l => l ++ ['\n']) s res before = .ok (f, said) := by
      intro lines
      induction lines with
      | nil => intro s res before f _ hs h; cases h; exact ⟨_, rfl⟩
      | cons l ls ih' =>
        intro s res before f hg hs h
        have hl := hg l (by simp)
        rw [List.map_cons, processLines, inputOf_line hl.1] at h
        rw [List.map_cons, linesSay, inputOf_line hl.1]
        simp only [Out.of_ok, Out.bind_ok] at h ⊢
        have hg := fun x hx => hg x (List.mem_cons_of_mem _ hx)
        split at h
        · rename_i hq
          rw [if_pos hq]
          cases h
          exact ⟨_, rfl⟩
        · rename_i hq
          rw [if_neg hq]
          split at h
          · rename_i hb
            rw [if_pos hb]
            exact ih' _ _ _ _ hg hs h
          · rename_i hb
            rw [if_neg hb]
            obtain ⟨g, h1, h2⟩ := Out.bind_eq_ok.1 h
            obtain ⟨said, h3⟩ := ih false _ _ _ hs hl h1
            rw [h3, Out.bind_ok]
            cases g with
            | exited ok =>
              cases h2
              exact ⟨_, rfl⟩
            | returned s' b => exact ih' _ _ _ _ hg (calm_returned K hfiles d _ _ _ _ hs hl h1) h2
    intro inter s input f hs hi h
    by_cases hl : firstCommand input commandTable = some .load
    · rw [execCommand, hl] at h
      rw [execSays, hl]
      simp only [runCommand, loadExec, runSays, loadSays] at h ⊢
      split at h
      · rename_i hb
        rw [if_pos hb]
        obtain ⟨⟨w, ok⟩, h1, h⟩ := Out.bind_eq_ok.1 h
        cases h
        rw [h1]
        exact ⟨_, rfl⟩
      · rename_i hb
        rw [if_neg hb]
        cases hf : K.files (input.drop loadCommand.length) with
        | none =>
          rw [hf] at h
          cases h
          exact ⟨_, rfl⟩
        | some text =>
          rw [hf] at h
          obtain ⟨lines, ht, hg⟩ := hfiles _ _ hf
          obtain ⟨g, h1, h⟩ := Out.bind_eq_ok.1 h
          cases h
          rw [Verif.processInput_text _ _ ht] at h1
          obtain ⟨said, h2⟩ := hlines lines s true {} g hg hs h1
          dsimp only
          unfold inputSays
          rw [ht.1, RuleFileProps.getlines_unlines _ fun l hl => (ht.2 l hl).1, h2]
          exact ⟨_, rfl⟩
    · exact single_total hD H d inter hs.noSingleClear.1 hi.1 hl h

end Verif.TranscriptProps
