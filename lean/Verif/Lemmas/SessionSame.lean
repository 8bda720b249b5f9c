import Verif.Lemmas.Session

/-!
# Sessions that cannot be told apart
-/

namespace Verif
open ParserProps
variable {V ε ρ : Type}

/-- Sessions with the same functions, rules, history and world; addresses of
operators and counters may differ. -/
structure Alike (s s' : Session V ρ) : Prop where
  funs : s'.funs = s.funs
  hist : s'.hist = s.hist
  world : s'.world = s.world
  ctx : ∃ us, Holds s.ctx us ∧ Holds s'.ctx us

/-- Equal outcomes, up to `R` on results. -/
inductive OutRel {α β : Type} (R : α → β → Prop) : Out α → Out β → Prop where
  | ok {a b} : R a b → OutRel R (.ok a) (.ok b)
  | hang : OutRel R .hang .hang
  | defect : OutRel R .defect .defect
  | ub : OutRel R .ub .ub

theorem OutRel.bind {α β γ δ : Type} {R : α → β → Prop} {S : γ → δ → Prop} {x : Out α} {y : Out β}
    {f : α → Out γ} {g : β → Out δ} (h : OutRel R x y) (hfg : ∀ a b, R a b → OutRel S (f a) (g b)) :
    OutRel S (x >>= f) (y >>= g) := by
  cases h with
  | ok hab => exact hfg _ _ hab
  | hang => exact .hang
  | defect => exact .defect
  | ub => exact .ub

theorem OutRel.refl {α : Type} {R : α → α → Prop} (h : ∀ a, R a a) (x : Out α) : OutRel R x x := by
  cases x with
  | ok a => exact .ok (h a)
  | hang => exact .hang
  | defect => exact .defect
  | ub => exact .ub

/-- Same result, and the sessions afterwards cannot be told apart. -/
def Both (α : Type) (x y : Session V ρ × α) : Prop := Alike x.1 y.1 ∧ x.2 = y.2

theorem Alike.arithSimplify {K : Client V ε ρ} {s s' : Session V ρ} (h : Alike s s') (t : Tree V) :
    arithSimplify K s'.funs s'.hist s'.world t = arithSimplify K s.funs s.hist s.world t := by
  rw [h.funs, h.hist, h.world]

theorem Alike.parse {s s' : Session V ρ} (h : Alike s s') (strtod : Str → Option V) (inp : Str) :
    parseEasy s'.ctx strtod inp = parseEasy s.ctx strtod inp := by
  obtain ⟨us, h1, h2⟩ := h.ctx
  exact h2.parseEasy h1 strtod inp

theorem Alike.lookup {s s' : Session V ρ} (h : Alike s s') (n : Str) (pl : Placement) :
    ∃ r r', s.ctx.lookup n pl = .ok r ∧ s'.ctx.lookup n pl = .ok r' ∧ r.map (·.2) = r'.map (·.2) := by
  obtain ⟨us, h1, h2⟩ := h.ctx
  obtain ⟨r, a1, a2⟩ := h1.lookup n pl
  obtain ⟨r', b1, b2⟩ := h2.lookup n pl
  exact ⟨r, r', a1, b1, a2.trans b2.symm⟩

theorem alike_arithParse {K : Client V ε ρ} {s s' : Session V ρ} (h : Alike s s') (input : Str) :
    OutRel (Both _) (arithParse K s input) (arithParse K s' input) := by
  unfold arithParse
  rw [h.parse]
  refine .bind (.refl (R := Eq) (fun _ => rfl) _) ?_
  rintro p _ rfl
  cases p with
  | none => exact .ok ⟨h, rfl⟩
  | some t =>
    simp only [h.arithSimplify]
    refine .bind (.refl (R := Eq) (fun _ => rfl) _) ?_
    rintro ⟨w, r⟩ _ rfl
    exact .ok ⟨⟨h.funs, h.hist, rfl, h.ctx⟩, rfl⟩

theorem alike_evaluation {K : Client V ε ρ} {s s' : Session V ρ} (h : Alike s s') (input : Str) :
    OutRel (Both _) (evaluationExec K s input) (evaluationExec K s' input) := by
  unfold evaluationExec
  refine .bind (alike_arithParse h input) ?_
  rintro ⟨a, r⟩ ⟨b, r'⟩ ⟨h1, h2⟩
  simp only at h1 h2
  subst h2
  cases r with
  | none => exact .ok ⟨h1, rfl⟩
  | some t =>
    cases t with
    | const v i => exact .ok ⟨⟨h1.funs, by simp [h1.hist], h1.world, h1.ctx⟩, rfl⟩
    | var => exact .ok ⟨h1, rfl⟩
    | op => exact .ok ⟨h1, rfl⟩

theorem removeNodeOp_alike {r : RewriteRule V} {o : Op} (hr : r.pattern.tree.rootOp = some o)
    {c c' : Ctx} {us : List Op} (h : Holds c us) (h' : Holds c' us) (ho : o ∈ us) :
    ∃ d d' vs, removeNodeOp c r = .ok d ∧ removeNodeOp c' r = .ok d' ∧ Holds d vs ∧ Holds d' vs ∧
      vs = us.filter fun v => v.name != o.name := by
  obtain ⟨d, a1, a2, -⟩ := h.deleteOp ho
  obtain ⟨d', b1, b2, -⟩ := h'.deleteOp ho
  exact ⟨d, d', _, by simp [removeNodeOp, hr, a1], by simp [removeNodeOp, hr, b1], a2, b2, rfl⟩

theorem alike_clear {s s' : Session V ρ} {D D' : List (FunDef V)} (h : Alike s s') (hs : Sess s D) (hs' : Sess s' D')
    (input : Str) : OutRel (Both _) (Out.of (clearExec s input)) (Out.of (clearExec s' input)) := by
  by_cases hi : input = clearCommand
  · subst hi
    obtain ⟨c, h1, h2⟩ := clearExec_all hs
    obtain ⟨c', h1', h2'⟩ := clearExec_all hs'
    rw [h1, h1']
    exact .ok ⟨⟨rfl, h.hist, h.world, [], h2, h2'⟩, rfl⟩
  · obtain ⟨r, r', a1, a2, a3⟩ := h.lookup (input.drop (clearCommand.length + 1)) .function
    simp only [clearExec, hi, if_false, a1, a2, Res.bind_ok]
    cases r with
    | none =>
      cases r' with
      | none => exact .ok ⟨h, rfl⟩
      | some _ => simp at a3
    | some x =>
      cases r' with
      | none => simp at a3
      | some y =>
        obtain ⟨a, o⟩ := x
        obtain ⟨b, p⟩ := y
        simp only [Option.map_some, Option.some.injEq] at a3
        subst a3
        simp only [h.funs]
        cases htk : takeRule o s.funs with
        | none => exact .ok ⟨h, rfl⟩
        | some z =>
          obtain ⟨q, rest⟩ := z
          simp only
          obtain ⟨us, g1, g2⟩ := h.ctx
          have hroot : q.pattern.tree.rootOp = some o ∧ o ∈ us := by
            rcases takeRule_spec hs.rules o with ⟨k1, -⟩ | ⟨q', rest', A, d, B, k1, k2, k3, k4, -⟩
            · rw [htk] at k1; cases k1
            · rw [htk] at k1
              simp only [Option.some.injEq, Prod.mk.injEq] at k1
              obtain ⟨rfl, rfl⟩ := k1
              obtain ⟨-, -, -, ps, tok, h4, -⟩ := k4.shape
              refine ⟨by rw [h4, ← k3]; rfl, ?_⟩
              have : us = D.map (·.op) := by
                have e1 := g1.snd
                rw [hs.ctx.snd] at e1
                exact (List.append_cancel_left e1).symm
              rw [this, k2, ← k3]
              simp
          obtain ⟨d, d', vs, k1, k2, k3, k4, -⟩ := removeNodeOp_alike hroot.1 g1 g2 hroot.2
          rw [k1, k2]
          exact .ok ⟨⟨rfl, h.hist, h.world, vs, k3, k4⟩, rfl⟩

theorem alike_fail {s s' : Session V ρ} (h : Alike s s') {c c' : Ctx} {us : List Op} {o : Op} (w : ρ)
    (hc : Holds c (us ++ [o])) (hc' : Holds c' (us ++ [o])) :
    OutRel (Both _) (definitionFail s c w o.name) (definitionFail s' c' w o.name) := by
  obtain ⟨d, a1, a2, -⟩ := hc.deleteOp (u := o) (by simp)
  obtain ⟨d', b1, b2, -⟩ := hc'.deleteOp (u := o) (by simp)
  simp only [definitionFail, a1, b1, Out.of_ok, Out.bind_ok]
  exact .ok ⟨⟨h.funs, h.hist, rfl, _, a2, b2⟩, rfl⟩

theorem alike_right {K : Client V ε ρ} {s s' : Session V ρ} (h : Alike s s') {c c' : Ctx} {us : List Op} {o : Op}
    (hc : Holds c (us ++ [o])) (hc' : Holds c' (us ++ [o])) (right : Str) (left : Tree V) :
    OutRel (Both _) (addFunctionRight K s c o.name right left o) (addFunctionRight K s' c' o.name right left o) := by
  unfold addFunctionRight
  rw [hc'.parseEasy hc]
  refine .bind (.refl (R := Eq) (fun _ => rfl) _) ?_
  rintro p _ rfl
  cases p with
  | none => rw [h.world]; exact alike_fail h _ hc hc'
  | some rt =>
    simp only
    split
    · rw [h.world]; exact alike_fail h _ hc hc'
    · rw [h.arithSimplify]
      refine .bind (.refl (R := Eq) (fun _ => rfl) _) ?_
      rintro ⟨w, x⟩ _ rfl
      cases x with
      | none => exact .ub
      | some body =>
        simp only
        cases getPattern left [] with
        | error e => exact .ub
        | ok pat =>
          simp only
          cases getRule pat body with
          | none => exact alike_fail h _ hc hc'
          | some rule => exact .ok ⟨⟨by simp [h.funs], h.hist, rfl, _, hc, hc'⟩, rfl⟩

theorem alike_definition {K : Client V ε ρ} {s s' : Session V ρ} (h : Alike s s') (input : Str) :
    OutRel (Both _) (definitionExec K s input) (definitionExec K s' input) := by
  obtain ⟨us, h1, h2⟩ := h.ctx
  unfold definitionExec
  cases hk : strstr input "=".toList with
  | none => exact .ub
  | some k =>
    simp only
    rw [h2.like.tokenize h1.like]
    cases htoks : (tokenize s.ctx.keywords (input.take k)).filter fun t => !headIs isSpace t with
    | nil => exact .ok ⟨h, rfl⟩
    | cons name more =>
      simp only
      split
      · exact .ok ⟨h, rfl⟩
      · rename_i hlet
        simp only [Bool.not_eq_true, Bool.not_eq_false'] at hlet
        have hw : isWord name = true := by
          refine h1.word (inp := input.take k) ?_ hlet
          have : name ∈ (tokenize s.ctx.keywords (input.take k)).filter fun t => !headIs isSpace t := by
            rw [htoks]; simp
          exact (List.mem_filter.mp this).1
        unfold addFunction
        obtain ⟨r, a1, a2⟩ := h1.lookup name .function
        obtain ⟨r', b1, b2⟩ := h2.lookup name .function
        rw [a1, b1]
        simp only [Out.of_ok, Out.bind_ok]
        have hrr : r.map (·.2) = r'.map (·.2) := a2.trans b2.symm
        cases r with
        | some x =>
          cases r' with
          | none => simp at hrr
          | some y => exact .ok ⟨h, rfl⟩
        | none =>
          cases r' with
          | some y => simp at hrr
          | none =>
            simp only
            have hlk : (arithEnv us).lookup name .function = none := by rw [← a2]; rfl
            obtain ⟨o1, ho1⟩ : ∃ o1, (if more.isEmpty = true then Op.getConstant name
              else Op.getFunction name .dyn) = o1 := ⟨_, rfl⟩
            have hu1 : UserFn o1 ∧ o1.name = name := by
              subst ho1
              split
              · exact ⟨⟨rfl, rfl, hw⟩, rfl⟩
              · exact ⟨⟨rfl, rfl, hw⟩, rfl⟩
            rw [ho1]
            obtain ⟨c1, g1, hc1, hd1, hop1⟩ := h1.addOp hu1.1 (by rw [hu1.2]; exact hlk)
            obtain ⟨e1, g1', he1, hd1', hop1'⟩ := h2.addOp hu1.1 (by rw [hu1.2]; exact hlk)
            simp only [g1, g1', Out.of_ok, Out.bind_ok]
            rw [he1.parseEasy hc1]
            have fail1 := fun w => alike_fail h w hc1 he1
            have hn : ({ o1 with id := 58 + us.length } : Op).name = name := hu1.2
            rw [hn] at fail1
            refine .bind (.refl (R := Eq) (fun _ => rfl) _) ?_
            rintro lt _ rfl
            cases lt with
            | none => simp only [h.world]; exact fail1 _
            | some lt =>
              simp only
              cases leftChecks lt with
              | none => simp only [h.world]; exact fail1 _
              | some lt =>
                simp only
                by_cases hm : more.isEmpty = true
                · rw [if_pos hm, if_pos hm, hd1, hd1']
                  simp only [Out.of_ok, Out.bind_ok]
                  have := alike_right (K := K) h hc1 he1 (input.drop (k + 1)) lt
                  rwa [hn] at this
                · rw [if_neg hm, if_neg hm]
                  obtain ⟨c2, d1, hc2, -⟩ := h1.undo hc1 hop1
                  obtain ⟨e2, d1', he2, -⟩ := h2.undo he1 hop1'
                  rw [hn] at d1 d1'
                  simp only [d1, d1', Out.of_ok, Out.bind_ok]
                  have hu3 : UserFn (Op.getFunction name (.fixed lt.numChildren)) := ⟨rfl, rfl, hw⟩
                  obtain ⟨c3, g3, hc3, hd3, -⟩ := hc2.addOp hu3 hlk
                  obtain ⟨e3, g3', he3, hd3', -⟩ := he2.addOp hu3 hlk
                  simp only [g3, g3', Out.of_ok, Out.bind_ok, hd3, hd3']
                  exact alike_right (K := K) h hc3 he3 (input.drop (k + 1)) _

end Verif
