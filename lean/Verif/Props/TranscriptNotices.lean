import Verif.Props.TranscriptTotal

/-!
# What is said in interactive mode (C91)
-/

namespace Verif.TranscriptProps
open Verif CommandSpec TranscriptSpec SessionProps
variable {V E ρ σ : Type}

/-! ## Notices -/

theorem withIds_root (f : Str → Nat) (t : Tree V) : (t.withIds f).rootOp = t.rootOp := by
  cases t <;> rfl

theorem right_notice {inter : Bool} {K : Client V (E × Nat) ρ} {message : E → Str} {s s' : Session V ρ} {c : Ctx} {name right : Str}
    {offset : Nat} {left : Tree V} {newOp : Op} {isC : Bool} {said : Said}
    (h : rightSays inter K message s c name right offset left newOp isC = .ok (s', true, said)) :
    ∃ rule, s'.funs = s.funs ++ [rule] ∧ rule.pattern.tree.rootOp = left.rootOp ∧ said.out = whisper inter
      (if left.rootOp.map (·.arity) = some (.fixed 0) then
        if !isC then "Added constant. Note: constants don't require a parameter list.\n".toList else "Added constant.\n".toList
      else "Added function.\n".toList) := by
  have hfail : ∀ {w : ρ} {m : Str}, failSays s c w name m ≠ .ok (s', true, said) := by
    intro w m h
    unfold failSays at h
    obtain ⟨⟨s1, ok1⟩, h1, h⟩ := Out.bind_eq_ok.1 h
    unfold definitionFail at h1
    obtain ⟨x, -, h1⟩ := Out.bind_eq_ok.1 h1
    cases h1
    cases h
  unfold rightSays at h
  obtain ⟨y, h1, h⟩ := Out.bind_eq_ok.1 h
  match y, h with
  | .error m, h => exact absurd h hfail
  | .ok (tokens, t), h =>
    dsimp only at h
    split at h
    · exact absurd h hfail
    · obtain ⟨⟨w, r⟩, h4, h⟩ := Out.bind_eq_ok.1 h
      match r, h with
      | .error m, h => cases h
      | .ok body, h =>
        dsimp only at h
        cases hp : getPattern left [] with
        | error e => rw [hp] at h; cases h
        | ok pattern =>
          rw [hp] at h
          dsimp only at h
          cases hg : getRule pattern body with
          | none =>
            rw [hg] at h
            exact absurd h hfail
          | some rule =>
            rw [hg] at h
            simp only [Out.pure_eq, Out.ok.injEq, Prod.mk.injEq, true_and] at h
            obtain ⟨rfl, rfl⟩ := h
            have hps := getPattern_spec hp
            obtain ⟨h5, -⟩ := getRule_spec hps hg
            refine ⟨rule, rfl, ?_, rfl⟩
            rw [h5, hps.tree, withIds_root]

theorem add_notice {K : Client V (E × Nat) ρ} {message : E → Str} {s s' : Session V ρ} {name left right : Str} {isC : Bool}
    {said : Said} (h : addSays true K message s name left right isC = .ok (s', true, said)) :
    ∃ rule, s'.funs = s.funs ++ [rule] ∧ ∀ o, rule.pattern.tree.rootOp = some o → said.out =
      if o.arity = .fixed 0 then
        if !isC then "Added constant. Note: constants don't require a parameter list.\n".toList else "Added constant.\n".toList
      else "Added function.\n".toList := by
  have hfail : ∀ {c : Ctx} {w : ρ} {m : Str}, failSays s c w name m ≠ .ok (s', true, said) := by
    intro c w m h
    unfold failSays at h
    obtain ⟨⟨s1, ok1⟩, h1, h⟩ := Out.bind_eq_ok.1 h
    unfold definitionFail at h1
    obtain ⟨x, -, h1⟩ := Out.bind_eq_ok.1 h1
    cases h1
    cases h
  have last : ∀ {c : Ctx} {off : Nat} {lt : Tree V} {newOp : Op},
      rightSays true K message s c name right off lt newOp isC = .ok (s', true, said) →
      ∃ rule, s'.funs = s.funs ++ [rule] ∧ ∀ o, rule.pattern.tree.rootOp = some o → said.out =
      if o.arity = .fixed 0 then
        if !isC then "Added constant. Note: constants don't require a parameter list.\n".toList else "Added constant.\n".toList
      else "Added function.\n".toList := by
    intro c off lt newOp hr
    obtain ⟨rule, r1, r2, r3⟩ := right_notice hr
    refine ⟨rule, r1, ?_⟩
    intro o ht
    rw [r3, ← r2, ht]
    simp only [whisper, Option.map_some, Option.some.injEq, if_true]
  unfold addSays at h
  obtain ⟨lk, -, h⟩ := Out.bind_eq_ok.1 h
  match lk, h with
  | some (_, o), h => cases h
  | none, h =>
    obtain ⟨⟨c1, a1⟩, -, h⟩ := Out.bind_eq_ok.1 h
    obtain ⟨y, -, h⟩ := Out.bind_eq_ok.1 h
    match y, h with
    | .error m, h => exact absurd h hfail
    | .ok (_, lt), h =>
      dsimp only at h
      cases hl : leftSays lt with
      | error m => rw [hl] at h; exact absurd h hfail
      | ok lt' =>
        rw [hl] at h
        dsimp only at h
        split at h
        · cases a1 with
          | none => cases h
          | some a =>
            obtain ⟨newOp, -, h⟩ := Out.bind_eq_ok.1 h
            exact last h
        · obtain ⟨⟨c2, _⟩, -, h⟩ := Out.bind_eq_ok.1 h
          obtain ⟨⟨c3, a3⟩, -, h⟩ := Out.bind_eq_ok.1 h
          cases a3 with
          | none => cases h
          | some a =>
            obtain ⟨newOp, -, h⟩ := Out.bind_eq_ok.1 h
            exact last h

/-- **C91**, definitions in interactive mode: a definition that succeeds is answered by one line, which tells whether it has
parameters.  If it has none, a hint is given unless the left side is just its name. -/
theorem C91_defined (K : Client V (E × Nat) ρ) (message : E → Str) (s s' : Session V ρ) (hs : SessionProps.Reachable K s) (input : Str)
    (said : Said) (h : definitionSays true K message s input = .ok (s', true, said)) :
    ∃ rule o cs i left right, input = left ++ '=' :: right ∧ '=' ∉ left ∧ s'.funs = s.funs ++ [rule] ∧ rule.pattern.tree = .op o cs i ∧
      said.err = [] ∧
      (cs ≠ [] → said.out = "Added function.\n".toList) ∧
      (cs = [] → ((tokenize s.ctx.keywords left).filter fun t => !headIs isSpace t).length = 1 → said.out = "Added constant.\n".toList) ∧
      (cs = [] → ((tokenize s.ctx.keywords left).filter fun t => !headIs isSpace t).length ≠ 1 →
        said.out = "Added constant. Note: constants don't require a parameter list.\n".toList) := by
  obtain ⟨hexec, hver, -⟩ := definition_sound h
  have herr : said.err = [] := by
    rcases hver with ⟨-, h⟩ | ⟨h, -⟩
    · exact h
    · cases h
  obtain ⟨D, hD⟩ := hs.sess
  have hs' : ∃ D', Sess s' D' := by
    rcases definitionExec_spec hD hexec with ⟨h, -⟩ | ⟨-, d, -, h, -⟩
    · cases h
    · exact ⟨_, h⟩
  obtain ⟨D', hD'⟩ := hs'
  have key : ∀ rule, s'.funs = s.funs ++ [rule] → ∃ o cs i, rule.pattern.tree = .op o cs i ∧ (o.arity = .fixed 0 ↔ cs = []) := by
    intro rule hr
    obtain ⟨d, hd, hdef⟩ := forall2_left hD'.rules (by rw [hr]; simp : rule ∈ s'.funs)
    obtain ⟨cs, tok, h1, h2⟩ := hdef.accepted
    have ha := hD'.arity d hd
    have e : rule.pattern.tree = .op d.op (Tree.withIdsList (addNew [] (Tree.op d.op cs tok).names).idxOf cs) tok := by
      rw [h2.spec.2.1.tree]; rfl
    have hv := HelpProps.withIds_vars (f := (addNew [] (Tree.op d.op cs tok).names).idxOf) h1
    refine ⟨_, _, _, e, ?_⟩
    rw [ha, ← List.length_eq_zero_iff, hv.length_eq]
    simp
  suffices fin : ∃ left right name more rule, input = left ++ '=' :: right ∧ '=' ∉ left ∧
      ((tokenize s.ctx.keywords left).filter fun t => !headIs isSpace t) = name :: more ∧ s'.funs = s.funs ++ [rule] ∧
      (∀ o cs i, rule.pattern.tree = .op o cs i → said.out = (if o.arity = .fixed 0 then
        if !more.isEmpty then "Added constant. Note: constants don't require a parameter list.\n".toList else "Added constant.\n".toList
        else "Added function.\n".toList)) by
    obtain ⟨left, right, name, more, rule, e1, e2, e3, hr, hm⟩ := fin
    obtain ⟨o, cs, i, h1, h2⟩ := key rule hr
    have hm := hm o cs i h1
    refine ⟨rule, o, cs, i, left, right, e1, e2, hr, h1, herr, ?_, ?_, ?_⟩
    · intro hc
      rw [hm, if_neg (fun e => hc (h2.1 e))]
    · intro hc hl
      rw [e3] at hl
      have : more = [] := by simpa using hl
      rw [hm, if_pos (h2.2 hc), this]
      rfl
    · intro hc hl
      rw [e3] at hl
      have : more ≠ [] := by simpa using hl
      rw [hm, if_pos (h2.2 hc), if_pos (by simpa using this)]
  unfold definitionSays at h
  split at h
  · cases h
  · rename_i k hk
    obtain ⟨⟨hcut, hfirst⟩, -⟩ := strstr_some hk
    have hno : '=' ∉ input.take k := by
      intro hm
      obtain ⟨a, b, hab⟩ := List.append_of_mem hm
      have hcut' : input = a ++ "=".toList ++ (b ++ "=".toList ++ input.drop (k + 1)) := by
        conv_lhs => rw [hcut, hab]
        simp
      have := hfirst a (b ++ "=".toList ++ input.drop (k + 1)) hcut'
      rw [hab] at this
      simp at this
    have hin : input = input.take k ++ '=' :: input.drop (k + 1) := by
      conv_lhs => rw [hcut]
      simp
    dsimp only at h
    split at h
    · cases h
    · rename_i name more htoks
      split at h
      · cases h
      · obtain ⟨rule, h1, h2⟩ := add_notice h
        refine ⟨_, _, _, _, rule, hin, hno, htoks, h1, ?_⟩
        intro o cs i ht
        rw [ht] at h2
        exact h2 o rfl

theorem takeRule_cut {o : Op} {rs rest : List (RewriteRule V)} {r : RewriteRule V} (h : takeRule o rs = some (r, rest)) :
    ∃ A B, rs = A ++ r :: B ∧ rest = A ++ B ∧ r.pattern.tree.rootOp = some o := by
  induction rs generalizing rest with
  | nil => cases h
  | cons q rs ih =>
    unfold takeRule at h
    split at h
    · rename_i hq
      cases h
      exact ⟨[], rs, rfl, rfl, hq⟩
    · split at h
      · rename_i q' rest' h1
        cases h
        obtain ⟨A, B, h2, h3, h4⟩ := ih h1
        exact ⟨q :: A, B, by rw [h2]; rfl, by rw [h3]; rfl, h4⟩
      · cases h

/-- **C91**, `clear` in interactive mode: if it succeeds, either everything was removed, or one function, and the answer tells
whether it had parameters. -/
theorem C91_cleared (K : Client V (E × Nat) ρ) (s s' : Session V ρ) (hs : Reachable K s) (input : Str) (said : Said)
    (h : clearSays true s input = .ok (s', true, said)) :
    said.err = [] ∧
    (input = "clear".toList ∧ s'.funs = [] ∧ said.out = "All functions and constants cleared\n".toList ∨
    ∃ A rule B o cs i, s.funs = A ++ rule :: B ∧ s'.funs = A ++ B ∧ rule.pattern.tree = .op o cs i ∧ o.name = input.drop 6 ∧
      said.out = if cs = [] then "Constant removed\n".toList else "Function removed\n".toList) := by
  obtain ⟨D, hD⟩ := hs.sess
  unfold clearSays at h
  split at h
  · rename_i hi
    obtain ⟨c, -, h⟩ := Res.bind_eq_ok.1 h
    cases h
    exact ⟨rfl, .inl ⟨hi, rfl, rfl⟩⟩
  · obtain ⟨lk, h1, h⟩ := Res.bind_eq_ok.1 h
    match lk, h, h1 with
    | none, h, _ => cases h
    | some (a, o), h, h1 =>
      dsimp only at h
      cases ht : takeRule o s.funs with
      | none => rw [ht] at h; cases h
      | some p =>
        obtain ⟨r, rest⟩ := p
        rw [ht] at h
        obtain ⟨c, -, h⟩ := Res.bind_eq_ok.1 h
        cases h
        obtain ⟨A, B, e1, e2, e3⟩ := takeRule_cut ht
        obtain ⟨d, hd, hdef⟩ := forall2_left hD.rules (by rw [e1]; simp : r ∈ s.funs)
        obtain ⟨cs, tok, v1, v2⟩ := hdef.accepted
        have ha := hD.arity d hd
        have e : r.pattern.tree = .op d.op (Tree.withIdsList (addNew [] (Tree.op d.op cs tok).names).idxOf cs) tok := by
          rw [v2.spec.2.1.tree]; rfl
        have hv := HelpProps.withIds_vars (f := (addNew [] (Tree.op d.op cs tok).names).idxOf) v1
        have ho : d.op = o := by
          rw [e] at e3
          simpa [Tree.rootOp] using e3
        subst ho
        obtain ⟨lk, hlk, hlk2⟩ := hD.ctx.lookup (input.drop (clearCommand.length + 1)) .function
        rw [hlk] at h1
        cases h1
        have hx : (arithEnv (D.map (·.op))).lookup (input.drop (clearCommand.length + 1)) .function = some d.op := by
          rw [← hlk2]; rfl
        have hn := List.find?_some hx
        simp only [Bool.and_eq_true, beq_iff_eq] at hn
        refine ⟨rfl, .inr ⟨A, r, B, _, _, _, e1, e2, e, hn.1, ?_⟩⟩
        have : (d.op.arity = .fixed 0) ↔ Tree.withIdsList (addNew [] (Tree.op d.op cs tok).names).idxOf cs = [] := by
          rw [ha, ← List.length_eq_zero_iff, hv.length_eq]
          simp
        simp only [whisper, this, if_true]

end Verif.TranscriptProps
