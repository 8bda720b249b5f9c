import Verif.Model.Transcript
import Verif.Lemmas.SessionTidy

/-!
# What is written, and what is done: the functions of Model/Transcript.lean do the same as those without output
-/

namespace Verif
variable {V E ρ σ : Type}

/-- The text is not empty and ends with a newline. -/
def Ends (m : Str) : Prop := ∃ a, m = a ++ ['\n']

theorem Ends.ne {m : Str} (h : Ends m) : m ≠ [] := by
  obtain ⟨a, rfl⟩ := h
  simp

theorem Ends.append {m n : Str} (h : Ends n) : Ends (m ++ n) := by
  obtain ⟨a, rfl⟩ := h
  exact ⟨m ++ a, by simp⟩

theorem report_ends (inter : Bool) (pos len : Nat) (msg : Str) : Ends (reportErrorAt inter pos len msg) := ⟨_, rfl⟩

theorem show_ends {inter : Bool} {tokens : List Str} {k p : Nat} {msg m : Str}
    (h : showErrorAtToken inter tokens k msg p = .ok m) : Ends m := by
  unfold showErrorAtToken at h
  obtain ⟨q, -, h⟩ := Res.bind_eq_ok.1 h
  cases h
  exact report_ends _ _ _ _

theorem parseRaw_sound {inter : Bool} {c : Ctx} {strtod : Str → Option V} {inp : Str} {p : Nat} {x : Except Str (List Str × Tree V)}
    (h : parseRawSays inter c strtod inp p = .ok x) :
    parseEasy c strtod inp = .ok (x.toOption.map (·.2)) ∧ ∀ m, x = .error m → Ends m := by
  unfold parseRawSays at h
  unfold parseEasy
  split at h
  · rename_i e
    rw [e]
    obtain ⟨r, hr, h⟩ := Res.bind_eq_ok.1 h
    cases h
    refine ⟨rfl, ?_⟩
    intro m hm
    cases hm
    exact show_ends hr
  · rename_i e
    rw [e]
    cases h
    exact ⟨rfl, by simp⟩
  · cases h
  · cases h

theorem simplify_sound {inter : Bool} {K : Client V (E × Nat) ρ} {message : E → Str} {funs : List (RewriteRule V)} {hist : List V}
    {w w' : ρ} {tokens : List Str} {t : Tree V} {p : Nat} {x : Except Str (Tree V)}
    (h : simplifySays inter K message funs hist w tokens t p = .ok (w', x)) :
    arithSimplify K funs hist w t = .ok (w', x.toOption) ∧ ∀ m, x = .error m → Ends m := by
  unfold simplifySays at h
  unfold arithSimplify
  obtain ⟨⟨t', n⟩, h1, h⟩ := Out.bind_eq_ok.1 h
  obtain ⟨⟨w2, r⟩, h2, h⟩ := Out.bind_eq_ok.1 h
  rw [h1, Out.bind_ok]
  dsimp only
  rw [h2, Out.bind_ok]
  match r, h with
  | .error (e, i), h =>
    obtain ⟨m, hm, h⟩ := Out.bind_eq_ok.1 h
    simp only [Out.pure_eq, Out.ok.injEq, Prod.mk.injEq] at h
    obtain ⟨rfl, rfl⟩ := h
    refine ⟨rfl, ?_⟩
    intro m' hm'
    cases hm'
    exact show_ends (Out.of_eq_ok.1 hm)
  | .ok u, h =>
    simp only [Out.pure_eq, Out.ok.injEq, Prod.mk.injEq] at h
    obtain ⟨rfl, rfl⟩ := h
    exact ⟨rfl, by simp⟩

theorem parse_sound {inter : Bool} {K : Client V (E × Nat) ρ} {message : E → Str} {s s' : Session V ρ} {inp : Str} {p : Nat}
    {x : Except Str (Tree V)} (h : parseSays inter K message s inp p = .ok (s', x)) :
    arithParse K s inp = .ok (s', x.toOption) ∧ ∀ m, x = .error m → Ends m := by
  unfold parseSays at h
  unfold arithParse
  obtain ⟨y, h1, h⟩ := Out.bind_eq_ok.1 h
  obtain ⟨h2, h3⟩ := parseRaw_sound (Out.of_eq_ok.1 h1)
  rw [h2]
  match y, h, h3 with
  | .error m, h, h3 =>
    simp only [Out.pure_eq, Out.ok.injEq, Prod.mk.injEq] at h
    obtain ⟨rfl, rfl⟩ := h
    exact ⟨rfl, fun m' hm' => h3 m' (by cases hm'; rfl)⟩
  | .ok (tokens, t), h, _ =>
    obtain ⟨⟨w, r⟩, h4, h⟩ := Out.bind_eq_ok.1 h
    simp only [Out.pure_eq, Out.ok.injEq, Prod.mk.injEq] at h
    obtain ⟨rfl, rfl⟩ := h
    obtain ⟨h5, h6⟩ := simplify_sound h4
    refine ⟨?_, h6⟩
    simp only [Except.toOption, Option.map_some, Out.of_ok, Out.bind_ok, h5]
    rfl

/-- Success and silence on standard error, or failure, a report and silence on standard output. -/
def Verdict (ok : Bool) (said : Said) : Prop := ok = true ∧ said.err = [] ∨ ok = false ∧ Ends said.err ∧ said.out = []

theorem evaluation_sound {inter : Bool} {K : Client V (E × Nat) ρ} {T : Texts V E ρ} {s s' : Session V ρ} {input : Str} {ok : Bool}
    {said : Said} (h : evaluationSays inter K T s input = .ok (s', ok, said)) :
    (∃ o, evaluationExec K s input = .ok (s', o) ∧ o.isSome = ok) ∧ Verdict ok said ∧
    ∃ o, evaluationText K inter T.general s input = .ok (s', o) ∧ said.out = o.getD [] := by
  unfold evaluationSays at h
  obtain ⟨⟨s1, x⟩, h1, h⟩ := Out.bind_eq_ok.1 h
  obtain ⟨h2, h3⟩ := parse_sound h1
  match x, h, h2, h3 with
  | .error m, h, h2, h3 =>
    simp only [Out.pure_eq, Out.ok.injEq, Prod.mk.injEq] at h
    obtain ⟨rfl, rfl, rfl⟩ := h
    have e : evaluationExec K s input = .ok (s1, none) := by
      unfold evaluationExec; rw [h2]; rfl
    exact ⟨⟨_, e, rfl⟩, .inr ⟨rfl, h3 m rfl, rfl⟩, _, by unfold evaluationText; rw [e]; rfl, rfl⟩
  | .ok t, h, h2, h3 =>
    obtain ⟨text, ht, h⟩ := Out.bind_eq_ok.1 h
    match t, h, h2, ht with
    | .const v i, h, h2, ht =>
      simp only [Out.pure_eq, Out.ok.injEq, Prod.mk.injEq] at h
      obtain ⟨rfl, rfl, rfl⟩ := h
      have e : evaluationExec K s input = .ok ({ s1 with hist := historyAdd s1.hist v }, some (.const v i)) := by
        unfold evaluationExec; rw [h2]; rfl
      refine ⟨⟨_, e, rfl⟩, .inl ⟨rfl, rfl⟩, some _, ?_, rfl⟩
      unfold evaluationText
      rw [e, Out.bind_ok]
      dsimp only
      rw [ht]
      rfl
    | .var n x i, h, h2, ht =>
      simp only [Out.pure_eq, Out.ok.injEq, Prod.mk.injEq] at h
      obtain ⟨rfl, rfl, rfl⟩ := h
      have e : evaluationExec K s input = .ok (s1, some (.var n x i)) := by
        unfold evaluationExec; rw [h2]; rfl
      refine ⟨⟨_, e, rfl⟩, .inl ⟨rfl, rfl⟩, some _, ?_, rfl⟩
      unfold evaluationText
      rw [e, Out.bind_ok]
      dsimp only
      rw [ht]
      rfl
    | .op o cs i, h, h2, ht =>
      simp only [Out.pure_eq, Out.ok.injEq, Prod.mk.injEq] at h
      obtain ⟨rfl, rfl, rfl⟩ := h
      have e : evaluationExec K s input = .ok (s1, some (.op o cs i)) := by
        unfold evaluationExec; rw [h2]; rfl
      refine ⟨⟨_, e, rfl⟩, .inl ⟨rfl, rfl⟩, some _, ?_, rfl⟩
      unfold evaluationText
      rw [e, Out.bind_ok]
      dsimp only
      rw [ht]
      rfl

theorem clear_sound {inter : Bool} {s s' : Session V ρ} {input : Str} {ok : Bool} {said : Said}
    (h : clearSays inter s input = .ok (s', ok, said)) :
    clearExec s input = .ok (s', ok) ∧ Verdict ok said ∧ (inter = false → said.out = []) := by
  unfold clearSays at h
  unfold clearExec
  split at h
  · rename_i hc
    rw [if_pos hc]
    obtain ⟨c, h1, h⟩ := Res.bind_eq_ok.1 h
    rw [h1]
    cases h
    exact ⟨rfl, .inl ⟨rfl, rfl⟩, fun hi => by rw [hi]; rfl⟩
  · rename_i hc
    rw [if_neg hc]
    obtain ⟨o, h1, h⟩ := Res.bind_eq_ok.1 h
    rw [h1]
    match o, h with
    | none, h =>
      cases h
      exact ⟨rfl, .inr ⟨rfl, report_ends _ _ _ _, rfl⟩, fun _ => rfl⟩
    | some (a, o), h =>
      simp only [Res.bind_ok]
      dsimp only at h
      cases ht : takeRule o s.funs with
      | none =>
        rw [ht] at h
        cases h
        exact ⟨rfl, .inr ⟨rfl, ⟨"Built-in functions can not be removed".toList, by decide⟩, rfl⟩, fun _ => rfl⟩
      | some q =>
        rw [ht] at h
        obtain ⟨c, h2, h⟩ := Res.bind_eq_ok.1 h
        simp only [h2, Res.bind_ok]
        cases h
        exact ⟨rfl, .inl ⟨rfl, rfl⟩, fun hi => by rw [hi]; rfl⟩

theorem left_sound (t : Tree V) : (leftSays t).toOption = leftChecks t := by
  cases t with
  | const => rfl
  | var => rfl
  | op o cs i =>
    unfold leftSays leftChecks
    simp only
    split
    · rfl
    · split
      · rfl
      · split
        · split
          · rfl
          · split <;> rfl
        · rfl

theorem fail_sound {s s' : Session V ρ} {c : Ctx} {w : ρ} {name m : Str} {ok : Bool} {said : Said}
    (h : failSays s c w name m = .ok (s', ok, said)) (hm : Ends m) :
    definitionFail s c w name = .ok (s', ok) ∧ Verdict ok said ∧ said.out = [] := by
  unfold failSays at h
  obtain ⟨⟨s1, ok1⟩, h1, h⟩ := Out.bind_eq_ok.1 h
  have : ok1 = false := by
    unfold definitionFail at h1
    obtain ⟨x, -, h1⟩ := Out.bind_eq_ok.1 h1
    cases h1
    rfl
  subst this
  cases h
  exact ⟨h1, .inr ⟨rfl, hm, rfl⟩, rfl⟩

theorem right_sound {inter : Bool} {K : Client V (E × Nat) ρ} {message : E → Str} {s s' : Session V ρ} {c : Ctx} {name right : Str}
    {offset : Nat} {left : Tree V} {newOp : Op} {isC ok : Bool} {said : Said}
    (h : rightSays inter K message s c name right offset left newOp isC = .ok (s', ok, said)) :
    addFunctionRight K s c name right left newOp = .ok (s', ok) ∧ Verdict ok said ∧ (inter = false → said.out = []) := by
  unfold rightSays at h
  unfold addFunctionRight
  obtain ⟨y, h1, h⟩ := Out.bind_eq_ok.1 h
  obtain ⟨h2, h3⟩ := parseRaw_sound (Out.of_eq_ok.1 h1)
  rw [h2, Out.of_ok, Out.bind_ok]
  match y, h, h3 with
  | .error m, h, h3 =>
    obtain ⟨a, b, d⟩ := fail_sound h (h3 m rfl)
    exact ⟨a, b, fun _ => d⟩
  | .ok (tokens, t), h, _ =>
    simp only [Except.toOption, Option.map_some]
    dsimp only at h
    split at h
    · rename_i hr
      rw [if_pos hr]
      obtain ⟨a, b, d⟩ := fail_sound h ⟨"Error: Recursive definition".toList, by decide⟩
      exact ⟨a, b, fun _ => d⟩
    · rename_i hr
      rw [if_neg hr]
      obtain ⟨⟨w, r⟩, h4, h⟩ := Out.bind_eq_ok.1 h
      obtain ⟨h5, -⟩ := simplify_sound h4
      rw [h5, Out.bind_ok]
      match r, h with
      | .error m, h => cases h
      | .ok body, h =>
        simp only [Except.toOption]
        dsimp only at h
        cases hp : getPattern left [] with
        | error e => rw [hp] at h; cases h
        | ok pattern =>
          rw [hp] at h
          dsimp only at h ⊢
          cases hg : getRule pattern body with
          | none =>
            rw [hg] at h
            obtain ⟨a, b, d⟩ := fail_sound h ⟨"Error: Unbound variable".toList, by decide⟩
            exact ⟨a, b, fun _ => d⟩
          | some rule =>
            rw [hg] at h
            simp only [Out.pure_eq, Out.ok.injEq, Prod.mk.injEq] at h
            obtain ⟨rfl, rfl, rfl⟩ := h
            exact ⟨rfl, .inl ⟨rfl, rfl⟩, fun hi => by rw [hi]; rfl⟩

theorem add_sound {inter : Bool} {K : Client V (E × Nat) ρ} {message : E → Str} {s s' : Session V ρ} {name left right : Str}
    {isC ok : Bool} {said : Said} (h : addSays inter K message s name left right isC = .ok (s', ok, said)) :
    addFunction K s name left right isC = .ok (s', ok) ∧ Verdict ok said ∧ (inter = false → said.out = []) := by
  unfold addSays at h
  unfold addFunction
  obtain ⟨o, h1, h⟩ := Out.bind_eq_ok.1 h
  rw [h1, Out.bind_ok]
  match o, h with
  | some (a, o), h =>
    simp only [Out.pure_eq, Out.ok.injEq, Prod.mk.injEq] at h
    obtain ⟨rfl, rfl, rfl⟩ := h
    refine ⟨rfl, .inr ⟨rfl, ?_, rfl⟩, fun _ => rfl⟩
    dsimp only
    split
    · exact ⟨"Error: Built-in functions can not be redefined".toList, by decide⟩
    · exact ⟨"Error: Function or constant already defined. Use clear command before redefinition".toList, by decide⟩
  | none, h =>
    obtain ⟨⟨c1, a1⟩, h2, h⟩ := Out.bind_eq_ok.1 h
    obtain ⟨y, h3, h⟩ := Out.bind_eq_ok.1 h
    obtain ⟨h4, h5⟩ := parseRaw_sound (Out.of_eq_ok.1 h3)
    dsimp only at h ⊢
    rw [h2, Out.bind_ok]
    dsimp only
    rw [h4, Out.of_ok, Out.bind_ok]
    match y, h, h5 with
    | .error m, h, h5 =>
      obtain ⟨a, b, d⟩ := fail_sound h (h5 m rfl)
      exact ⟨a, b, fun _ => d⟩
    | .ok (tokens, lt), h, _ =>
      simp only [Except.toOption, Option.map_some]
      dsimp only at h
      rw [← left_sound lt]
      cases hl : leftSays lt with
      | error m =>
        rw [hl] at h
        obtain ⟨a, b, d⟩ := fail_sound h (report_ends _ _ _ _)
        exact ⟨a, b, fun _ => d⟩
      | ok lt =>
        rw [hl] at h
        simp only [Except.toOption]
        dsimp only at h
        split at h
        · rename_i hc
          rw [if_pos hc]
          cases a1 with
          | none => cases h
          | some a =>
            obtain ⟨newOp, h6, h⟩ := Out.bind_eq_ok.1 h
            simp only [h6, Out.bind_ok]
            exact right_sound h
        · rename_i hc
          rw [if_neg hc]
          obtain ⟨⟨c2, x2⟩, h6, h⟩ := Out.bind_eq_ok.1 h
          obtain ⟨⟨c3, a3⟩, h7, h⟩ := Out.bind_eq_ok.1 h
          simp only [h6, Out.bind_ok, h7]
          cases a3 with
          | none => cases h
          | some a =>
            obtain ⟨newOp, h8, h⟩ := Out.bind_eq_ok.1 h
            simp only [h8, Out.bind_ok]
            exact right_sound h

theorem definition_sound {inter : Bool} {K : Client V (E × Nat) ρ} {message : E → Str} {s s' : Session V ρ} {input : Str}
    {ok : Bool} {said : Said} (h : definitionSays inter K message s input = .ok (s', ok, said)) :
    definitionExec K s input = .ok (s', ok) ∧ Verdict ok said ∧ (inter = false → said.out = []) := by
  unfold definitionSays at h
  unfold definitionExec
  split at h
  · cases h
  · rename_i k hk
    rw [hk]
    dsimp only at h ⊢
    split at h
    · rename_i he
      rw [he]
      simp only [Out.pure_eq, Out.ok.injEq, Prod.mk.injEq] at h
      obtain ⟨rfl, rfl, rfl⟩ := h
      exact ⟨rfl, .inr ⟨rfl, report_ends _ _ _ _, rfl⟩, fun _ => rfl⟩
    · rename_i name more he
      rw [he]
      dsimp only
      split at h
      · rename_i hl
        rw [if_pos hl]
        simp only [Out.pure_eq, Out.ok.injEq, Prod.mk.injEq] at h
        obtain ⟨rfl, rfl, rfl⟩ := h
        exact ⟨rfl, .inr ⟨rfl, report_ends _ _ _ _, rfl⟩, fun _ => rfl⟩
      · rename_i hl
        rw [if_neg hl]
        exact add_sound h

/-! ## Tables -/

theorem parseAll_sound {inter : Bool} {K : Client V (E × Nat) ρ} {message : E → Str} {ps : List TableArg} : ∀ {s s' : Session V ρ}
    {x : Except Str (List (Tree V))}, parseAllSays inter K message s ps = .ok (s', x) →
    parseAll K s (ps.map (·.2)) = .ok (s', x.toOption) ∧ (∀ m, x = .error m → Ends m) ∧ ∀ ts, x = .ok ts → ts.length = ps.length := by
  induction ps with
  | nil =>
    intro s s' x h
    cases h
    exact ⟨rfl, by simp, fun ts h => by cases h; rfl⟩
  | cons p ps ih =>
    intro s s' x h
    rw [parseAllSays] at h
    obtain ⟨⟨s1, y⟩, h1, h⟩ := Out.bind_eq_ok.1 h
    obtain ⟨h2, h3⟩ := parse_sound h1
    rw [List.map_cons, parseAll, h2, Out.bind_ok]
    match y, h, h3 with
    | .error m, h, h3 =>
      simp only [Out.pure_eq, Out.ok.injEq, Prod.mk.injEq] at h
      obtain ⟨rfl, rfl⟩ := h
      exact ⟨rfl, fun m' hm' => h3 m' (by cases hm'; rfl), by simp⟩
    | .ok u, h, _ =>
      obtain ⟨⟨s2, us⟩, h4, h⟩ := Out.bind_eq_ok.1 h
      obtain ⟨h5, h6, h7⟩ := ih h4
      simp only [Except.toOption]
      rw [h5, Out.bind_ok]
      match us, h, h6, h7 with
      | .error m, h, h6, h7 =>
        simp only [Out.pure_eq, Out.ok.injEq, Prod.mk.injEq] at h
        obtain ⟨rfl, rfl⟩ := h
        exact ⟨rfl, fun m' hm' => h6 m' (by cases hm'; rfl), by simp⟩
      | .ok us, h, h6, h7 =>
        simp only [Out.pure_eq, Out.ok.injEq, Prod.mk.injEq] at h
        obtain ⟨rfl, rfl⟩ := h
        exact ⟨rfl, by simp, fun ts ht => by cases ht; simp [h7 us rfl]⟩

theorem tableShow_some {ε : Type} {K : Program V ε ρ} {s s' : Session V ρ} {expr : Tree V} {var : Option Str} {start stop step : V}
    {fold : Option (Tree V × V)} {o : Option (TableOut V)} (h : tableShow K s expr var start stop step fold = .ok (s', o)) :
    o.isSome = true := by
  unfold tableShow at h
  obtain ⟨⟨w, rows, acc⟩, -, h⟩ := Out.bind_eq_ok.1 h
  cases fold <;> (cases h; rfl)

theorem tableDone_sound {ε : Type} {K : Program V ε ρ} {s s' : Session V ρ} {expr : Tree V} {var : Option Str} {start stop step : V}
    {fold : Option (Tree V × V)} {x : Except Str (TableOut V)}
    (h : (do let y ← tableShow K s expr var start stop step fold; pure (tableDone y)) = .ok (s', x)) :
    tableShow K s expr var start stop step fold = .ok (s', x.toOption) ∧ ∀ m, x = .error m → Ends m := by
  obtain ⟨⟨s1, o⟩, h1, h⟩ := Out.bind_eq_ok.1 h
  have := tableShow_some h1
  cases o with
  | none => cases this
  | some out =>
    cases h
    exact ⟨h1, by simp⟩

theorem notConstant_ends {inter : Bool} {p : TableArg} {t : Tree V} {m : Str} (h : notConstant inter p t = some m) :
    Ends m ∧ countVars t ≠ 0 := by
  unfold notConstant at h
  split at h
  · rename_i hc
    cases h
    exact ⟨report_ends _ _ _ _, hc⟩
  · cases h

theorem notConstant_none {inter : Bool} {p : TableArg} {t : Tree V} (h : notConstant inter p t = none) : countVars t = 0 := by
  unfold notConstant at h
  split at h
  · cases h
  · rename_i hc
    exact not_not.1 hc

theorem fold_sound {inter : Bool} {K : Program V (E × Nat) ρ} {message : E → Str} {s s' : Session V ρ} {expr : Tree V}
    {var : Option Str} {start stop step : V} {more : List TableArg} {x : Except Str (TableOut V)}
    (h : foldSays inter K message s expr var start stop step more = .ok (s', x)) :
    tableFold K s expr var start stop step (more.map (·.2)) = .ok (s', x.toOption) ∧ ∀ m, x = .error m → Ends m := by
  cases more with
  | nil =>
    rw [foldSays] at h
    exact tableDone_sound h
  | cons p ps =>
    rw [foldSays.eq_2 _ _ _ _ _ _ _ _ _ _ (by simp)] at h
    rw [tableFold.eq_2 _ _ _ _ _ _ _ _ (by simp)]
    obtain ⟨⟨s1, y⟩, h1, h⟩ := Out.bind_eq_ok.1 h
    obtain ⟨h2, h3, h4⟩ := parseAll_sound h1
    rw [h2, Out.bind_ok]
    match y, h, h3 with
    | .error m, h, h3 =>
      simp only [Out.pure_eq, Out.ok.injEq, Prod.mk.injEq] at h
      obtain ⟨rfl, rfl⟩ := h
      exact ⟨rfl, fun m' hm' => h3 m' (by cases hm'; rfl)⟩
    | .ok ts, h, _ =>
      have hl := h4 ts rfl
      match ts, ps, h, hl with
      | [f, i], [pi], h, _ =>
        simp only [Except.toOption] at h ⊢
        split at h
        · rename_i hf
          rw [if_pos hf]
          cases h
          exact ⟨rfl, fun m hm => by cases hm; exact report_ends _ _ _ _⟩
        · rename_i hf
          rw [if_neg hf]
          split at h
          · rename_i m hm
            obtain ⟨e1, e2⟩ := notConstant_ends hm
            rw [if_pos e2]
            cases h
            exact ⟨rfl, fun m' hm' => by cases hm'; exact e1⟩
          · rename_i hm
            rw [if_neg (not_not.2 (notConstant_none hm))]
            obtain ⟨⟨w, a⟩, h5, h⟩ := Out.bind_eq_ok.1 h
            rw [h5, Out.bind_ok]
            exact tableDone_sound h
      | [], _, h, _ => cases h
      | [_], _, h, _ => cases h
      | _ :: _ :: _ :: _, _, h, _ => cases h
      | [_, _], [], _, hl => simp at hl
      | [_, _], _ :: _ :: _, _, hl => simp at hl

theorem bounds_sound {inter : Bool} {K : Program V (E × Nat) ρ} {message : E → Str} {s s' : Session V ρ} {expr : Tree V}
    {var : Option Str} {pa pb pc : TableArg} {more : List TableArg} {x : Except Str (TableOut V)}
    (h : boundsSays inter K message s expr var pa pb pc more = .ok (s', x)) :
    tableBounds K s expr var [pa.2, pb.2, pc.2] (more.map (·.2)) = .ok (s', x.toOption) ∧ ∀ m, x = .error m → Ends m := by
  unfold boundsSays at h
  unfold tableBounds
  obtain ⟨⟨s1, y⟩, h1, h⟩ := Out.bind_eq_ok.1 h
  obtain ⟨h2, h3, h4⟩ := parseAll_sound h1
  have e : [pa.2, pb.2, pc.2] = [pa, pb, pc].map (·.2) := rfl
  rw [e, h2, Out.bind_ok]
  match y, h, h3 with
  | .error m, h, h3 =>
    simp only [Out.pure_eq, Out.ok.injEq, Prod.mk.injEq] at h
    obtain ⟨rfl, rfl⟩ := h
    exact ⟨rfl, fun m' hm' => h3 m' (by cases hm'; rfl)⟩
  | .ok ts, h, _ =>
    have hl := h4 ts rfl
    match ts, h, hl with
    | [a, b, c], h, _ =>
      simp only [Except.toOption] at h ⊢
      cases ha : notConstant inter pa a with
      | some m =>
        rw [ha] at h
        obtain ⟨e1, e2⟩ := notConstant_ends ha
        rw [if_pos (by simp [e2])]
        cases h
        exact ⟨rfl, fun m' hm' => by cases hm'; exact e1⟩
      | none =>
      cases hb : notConstant inter pb b with
      | some m =>
        rw [ha, hb] at h
        obtain ⟨e1, e2⟩ := notConstant_ends hb
        rw [if_pos (by simp [e2])]
        cases h
        exact ⟨rfl, fun m' hm' => by cases hm'; exact e1⟩
      | none =>
      cases hc : notConstant inter pc c with
      | some m =>
        rw [ha, hb, hc] at h
        obtain ⟨e1, e2⟩ := notConstant_ends hc
        rw [if_pos (by simp [e2])]
        cases h
        exact ⟨rfl, fun m' hm' => by cases hm'; exact e1⟩
      | none =>
        rw [ha, hb, hc] at h
        rw [if_neg (by simp [notConstant_none ha, notConstant_none hb, notConstant_none hc])]
        obtain ⟨⟨w1, v1⟩, h5, h⟩ := Out.bind_eq_ok.1 h
        obtain ⟨⟨w2, v2⟩, h6, h⟩ := Out.bind_eq_ok.1 h
        obtain ⟨⟨w3, v3⟩, h7, h⟩ := Out.bind_eq_ok.1 h
        simp only [h5, h6, h7, Out.bind_ok]
        dsimp only at h
        split at h
        · rename_i hz
          rw [if_pos hz]
          cases h
          exact ⟨rfl, fun m hm => by cases hm; exact report_ends _ _ _ _⟩
        · rename_i hz
          rw [if_neg hz]
          exact fold_sound h
    | [], _, hl => simp at hl
    | [_], _, hl => simp at hl
    | [_, _], _, hl => simp at hl
    | _ :: _ :: _ :: _ :: _, _, hl => simp at hl

theorem expr_sound {inter : Bool} {K : Program V (E × Nat) ρ} {T : Texts V E ρ} {s s' : Session V ρ} {ps : List TableArg} {ok : Bool}
    {said : Said} (h : exprSays inter K T s ps = .ok (s', ok, said)) :
    (∃ o, tableExpr K s (ps.map (·.2)) = .ok (s', o) ∧ o.isSome = ok) ∧ Verdict ok said ∧
    ∃ o, tablePrint K inter T.fixed T.general s (ps.map (·.2)) = .ok (s', o) ∧ said.out = o.getD [] := by
  match ps, h with
  | e :: a :: b :: c :: more, h =>
    rw [exprSays] at h
    obtain ⟨y, h1, h⟩ := Out.bind_eq_ok.1 h
    obtain ⟨h2, h3⟩ := parseRaw_sound (Out.of_eq_ok.1 h1)
    simp only [List.map_cons, tableExpr, tablePrint, arithParse, h2]
    match y, h, h3 with
    | .error m, h, h3 =>
      simp only [Out.pure_eq, Out.ok.injEq, Prod.mk.injEq] at h
      obtain ⟨rfl, rfl, rfl⟩ := h
      exact ⟨⟨none, rfl, rfl⟩, .inr ⟨rfl, h3 m rfl, rfl⟩, none, rfl, rfl⟩
    | .ok (tokens, raw), h, _ =>
      obtain ⟨title, h4, h⟩ := Out.bind_eq_ok.1 h
      obtain ⟨⟨w, r⟩, h5, h⟩ := Out.bind_eq_ok.1 h
      obtain ⟨h6, h7⟩ := simplify_sound h5
      simp only [Except.toOption, Option.map_some, Out.of_ok, Out.bind_ok, h4, h6]
      match r, h, h7 with
      | .error m, h, h7 =>
        simp only [Out.pure_eq, Out.ok.injEq, Prod.mk.injEq] at h
        obtain ⟨rfl, rfl, rfl⟩ := h
        exact ⟨⟨none, rfl, rfl⟩, .inr ⟨rfl, h7 m rfl, rfl⟩, none, rfl, rfl⟩
      | .ok t, h, _ =>
        simp only [Except.toOption, Out.pure_eq, Out.bind_ok] at h ⊢
        split at h
        · rename_i hs
          rw [if_pos hs, if_pos hs]
          simp only [Out.ok.injEq, Prod.mk.injEq] at h
          obtain ⟨rfl, rfl, rfl⟩ := h
          exact ⟨⟨none, rfl, rfl⟩, .inr ⟨rfl, report_ends _ _ _ _, rfl⟩, none, rfl, rfl⟩
        · rename_i hs
          rw [if_neg hs, if_neg hs]
          obtain ⟨⟨s2, x⟩, h8, h⟩ := Out.bind_eq_ok.1 h
          obtain ⟨h9, h10⟩ := bounds_sound h8
          rw [h9]
          match x, h, h10 with
          | .error m, h, h10 =>
            simp only [Out.ok.injEq, Prod.mk.injEq] at h
            obtain ⟨rfl, rfl, rfl⟩ := h
            exact ⟨⟨none, rfl, rfl⟩, .inr ⟨rfl, h10 m rfl, rfl⟩, none, rfl, rfl⟩
          | .ok out, h, _ =>
            obtain ⟨text, h11, h⟩ := Out.bind_eq_ok.1 h
            simp only [Out.ok.injEq, Prod.mk.injEq] at h
            obtain ⟨rfl, rfl, rfl⟩ := h
            refine ⟨⟨some out, rfl, rfl⟩, .inl ⟨rfl, rfl⟩, some text, ?_, rfl⟩
            simp only [Except.toOption, Out.bind_ok, h11]
  | [], h => cases h
  | [_], h => cases h
  | [_, _], h => cases h
  | [_, _, _], h => cases h

theorem table_sound {inter : Bool} {K : Program V (E × Nat) ρ} {T : Texts V E ρ} {s s' : Session V ρ} {input : Str} {ok : Bool}
    {said : Said} (h : tableSays inter K T s input = .ok (s', ok, said)) :
    (∃ o, tableExec K s input = .ok (s', o) ∧ o.isSome = ok) ∧ Verdict ok said ∧
    ∃ o, tableExecText K inter T.fixed T.general s input = .ok (s', o) ∧ said.out = o.getD [] := by
  unfold tableSays at h
  unfold tableExec tableExecText
  dsimp only at h ⊢
  split at h
  · rename_i hl
    rw [if_pos hl, if_pos hl]
    simp only [Out.ok.injEq, Prod.mk.injEq] at h
    obtain ⟨rfl, rfl, rfl⟩ := h
    refine ⟨⟨none, rfl, rfl⟩, .inr ⟨rfl, ⟨("Error: Invalid syntax. Syntax is:\n" ++
      "table <expr> ; <from> ; <to> ; <step> [fold <expr> ; <init>]").toList, by decide⟩, rfl⟩, none, rfl, rfl⟩
  · rename_i hl
    rw [if_neg hl, if_neg hl]
    obtain ⟨⟨m, os⟩, h1, h⟩ := Out.bind_eq_ok.1 h
    have e : os.map (cstrAt m) = (os.map fun o => (o, cstrAt m o)).map (·.2) := by simp
    simp only [h1, Out.bind_ok, e]
    exact expr_sound h

/-! ## Commands and files -/

theorem then_assoc (a b c : Said) : (a.then b).then c = a.then (b.then c) := by simp [Said.then]

theorem then_nil (a : Said) : a.then {} = a := by simp [Said.then]

theorem nil_then (a : Said) : ({} : Said).then a = a := by simp [Said.then]

theorem lines_sound {inter : Bool} {exec : σ → Str → Out (Fate σ × Said)} {exec' : σ → Str → Out (Fate σ)}
    (he : ∀ s i f said, exec s i = .ok (f, said) → exec' s i = .ok f) :
    ∀ (ls : List Str) (s : σ) (res : Bool) (before : Said) (f : Fate σ) (said : Said),
      linesSay inter exec ls s res before = .ok (f, said) → processLines exec' ls s res = .ok f := by
  intro ls
  induction ls with
  | nil =>
    intro s res before f said h
    cases h
    rfl
  | cons l ls ih =>
    intro s res before f said h
    rw [linesSay] at h
    rw [processLines]
    obtain ⟨input, h1, h⟩ := Out.bind_eq_ok.1 h
    rw [h1, Out.bind_ok]
    split at h
    · rename_i hq
      rw [if_pos hq]
      cases h
      rfl
    · rename_i hq
      rw [if_neg hq]
      split at h
      · rename_i hc
        rw [if_pos hc]
        exact ih _ _ _ _ _ h
      · rename_i hc
        rw [if_neg hc]
        obtain ⟨⟨g, more⟩, h2, h⟩ := Out.bind_eq_ok.1 h
        rw [he _ _ _ _ h2, Out.bind_ok]
        match g, h with
        | .returned s' ok, h => exact ih _ _ _ _ _ h
        | .exited ok, h => cases h; rfl

theorem input_sound {inter : Bool} {exec : σ → Str → Out (Fate σ × Said)} {exec' : σ → Str → Out (Fate σ)}
    (he : ∀ s i f said, exec s i = .ok (f, said) → exec' s i = .ok f) {s : σ} {text : Str} {f : Fate σ} {said : Said}
    (h : inputSays inter exec s text = .ok (f, said)) : processInput exec' s text = .ok f :=
  lines_sound he _ _ _ _ _ _ h

theorem load_sound {inter : Bool} {K : Program V (E × Nat) ρ} {T : Texts V E ρ}
    {exec : Session V ρ → Str → Out (Fate (Session V ρ) × Said)} {exec' : Session V ρ → Str → Out (Fate (Session V ρ))}
    (he : ∀ s i f said, exec s i = .ok (f, said) → exec' s i = .ok f) {s : Session V ρ} {input : Str} {f : Fate (Session V ρ)}
    {said : Said} (h : loadSays inter K T exec s input = .ok (f, said)) : loadExec K exec' s input = .ok f := by
  unfold loadSays at h
  unfold loadExec
  split at h
  · rename_i hb
    rw [if_pos hb]
    obtain ⟨⟨w, ok⟩, h1, h⟩ := Out.bind_eq_ok.1 h
    simp only [h1, Out.bind_ok]
    cases h
    rfl
  · rename_i hb
    rw [if_neg hb]
    dsimp only at h
    split at h
    · rename_i hf
      rw [hf]
      cases h
      rfl
    · rename_i text hf
      rw [hf]
      obtain ⟨⟨g, more⟩, h1, h⟩ := Out.bind_eq_ok.1 h
      simp only [input_sound he h1, Out.bind_ok]
      cases h
      rfl

theorem run_sound {inter : Bool} {K : Program V (E × Nat) ρ} {T : Texts V E ρ} {H : HelpEval V}
    {exec : Session V ρ → Str → Out (Fate (Session V ρ) × Said)} {exec' : Session V ρ → Str → Out (Fate (Session V ρ))}
    (he : ∀ s i f said, exec s i = .ok (f, said) → exec' s i = .ok f) {s : Session V ρ} {input : Str} {c : Command}
    {f : Fate (Session V ρ)} {said : Said} (h : runSays inter K T H exec s input c = .ok (f, said)) :
    runCommand K exec' s input c = .ok f := by
  cases c with
  | help =>
    rw [runSays] at h
    split at h
    · cases h
    · obtain ⟨text, -, h⟩ := Out.bind_eq_ok.1 h
      cases h
      rfl
  | table =>
    obtain ⟨⟨s1, ok, sd⟩, h1, h⟩ := Out.bind_eq_ok.1 h
    cases h
    obtain ⟨⟨o, e1, e2⟩, -⟩ := table_sound h1
    rw [runCommand, e1, ← e2]
    rfl
  | definition =>
    obtain ⟨⟨s1, ok, sd⟩, h1, h⟩ := Out.bind_eq_ok.1 h
    cases h
    rw [runCommand, (definition_sound h1).1]
    rfl
  | clear =>
    obtain ⟨⟨s1, ok, sd⟩, h1, h⟩ := Out.bind_eq_ok.1 h
    cases h
    rw [runCommand, (clear_sound (Out.of_eq_ok.1 h1)).1]
    rfl
  | load => exact load_sound he h
  | evaluation =>
    obtain ⟨⟨s1, ok, sd⟩, h1, h⟩ := Out.bind_eq_ok.1 h
    cases h
    obtain ⟨⟨o, e1, e2⟩, -⟩ := evaluation_sound h1
    rw [runCommand, e1, ← e2]
    rfl

theorem exec_sound {K : Program V (E × Nat) ρ} {T : Texts V E ρ} {H : HelpEval V} : ∀ (d : Nat) (inter : Bool) (s : Session V ρ)
    (input : Str) (f : Fate (Session V ρ)) (said : Said), execSays K T H d inter s input = .ok (f, said) →
    execCommand K d s input = .ok f := by
  intro d
  induction d with
  | zero => intro inter s input f said h; cases h
  | succ d ih =>
    intro inter s input f said h
    rw [execSays] at h
    rw [execCommand]
    split at h
    · rename_i c hc
      rw [hc]
      exact run_sound (ih false) h
    · rename_i hc
      rw [hc]
      cases h
      rfl

end Verif
