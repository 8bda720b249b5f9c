import Verif.Lemmas.SessionTidy
import Verif.Lemmas.SessionSame

/-!
# C32 - C37: definitions, clearing and evaluation in a session
-/

namespace Verif.SessionProps
open Verif ParserProps
variable {V ε ρ : Type}

/-- The states the commands can lead to, starting with the program.  `P` restricts the
definitions that are made (state before and input), `C` the inputs of `clear`.
`outside` stands for the commands that load rules, fold a table into the history, and
everything else outside of the functions. -/
inductive Reach (K : Client V ε ρ) (P : Session V ρ → Str → Prop) (C : Str → Prop) : Session V ρ → Prop where
  | start {w s} : initSession w = .ok s → Reach K P C s
  | define {s s' input r} : Reach K P C s → P s input → definitionCheck input = true →
      definitionExec K s input = .ok (s', r) → Reach K P C s'
  | clear {s s' input r} : Reach K P C s → C input → clearCheck input = true →
      clearExec s input = .ok (s', r) → Reach K P C s'
  | evaluate {s s' input r} : Reach K P C s → evaluationExec K s input = .ok (s', r) → Reach K P C s'
  | outside {s} (h : List V) (w : ρ) : Reach K P C s → Reach K P C { s with hist := h, world := w }

/-- Any history of commands. -/
abbrev Reachable (K : Client V ε ρ) : Session V ρ → Prop := Reach K (fun _ _ => True) fun _ => True

theorem Reach.mono {K : Client V ε ρ} {P P' : Session V ρ → Str → Prop} {C C' : Str → Prop} {s : Session V ρ}
    (h : Reach K P C s) (hP : ∀ s i, P s i → P' s i) (hC : ∀ i, C i → C' i) : Reach K P' C' s := by
  induction h with
  | start h => exact .start h
  | define _ h1 h2 h3 ih => exact .define ih (hP _ _ h1) h2 h3
  | clear _ h1 h2 h3 ih => exact .clear ih (hC _ h1) h2 h3
  | evaluate _ h1 ih => exact .evaluate ih h1
  | outside h w _ ih => exact .outside h w ih

theorem Sess.congr {s s' : Session V ρ} {D : List (FunDef V)} (h : Sess s D) (hc : s'.ctx = s.ctx)
    (hf : s'.funs = s.funs) : Sess s' D := ⟨hc ▸ h.ctx, hf ▸ h.rules, h.arity, h.ids⟩

/-- **C32, C35 - C37**, invariant: in every state a history of commands leads to, the
operators are the built-in ones followed by those of the functions `D`, and each
function has exactly one rule, made from its parameters and body. -/
theorem Reach.sess {K : Client V ε ρ} {P : Session V ρ → Str → Prop} {C : Str → Prop} {s : Session V ρ}
    (h : Reach K P C s) : ∃ D, Sess s D := by
  induction h with
  | start h => exact ⟨[], initSession_sess h⟩
  | define _ _ _ h3 ih =>
    obtain ⟨D, hD⟩ := ih
    rcases definitionExec_spec hD h3 with ⟨-, h⟩ | ⟨-, d, -, h, -⟩
    · exact ⟨D, h.sess hD⟩
    · exact ⟨_, h⟩
  | @clear s s' input r _ _ _ h3 ih =>
    obtain ⟨D, hD⟩ := ih
    by_cases hi : input = clearCommand
    · subst hi
      obtain ⟨c, h1, h2⟩ := clearExec_all hD
      rw [h1] at h3
      simp only [Res.ok.injEq, Prod.mk.injEq] at h3
      obtain ⟨rfl, -⟩ := h3
      exact ⟨[], h2, .nil, by simp, by simp⟩
    · rcases clearExec_one hD hi with ⟨h1, -⟩ | ⟨s2, d, h1, -, -, -, -, h2⟩
      · rw [h1] at h3
        simp only [Res.ok.injEq, Prod.mk.injEq] at h3
        obtain ⟨rfl, -⟩ := h3
        exact ⟨D, hD⟩
      · rw [h1] at h3
        simp only [Res.ok.injEq, Prod.mk.injEq] at h3
        obtain ⟨rfl, -⟩ := h3
        exact ⟨_, h2⟩
  | evaluate _ h1 ih =>
    obtain ⟨D, hD⟩ := ih
    obtain ⟨h2, h3, -⟩ := evaluationExec_spec h1
    exact ⟨D, Sess.congr hD h2 h3⟩
  | outside h w _ ih =>
    obtain ⟨D, hD⟩ := ih
    exact ⟨D, Sess.congr hD rfl rfl⟩

/-! ## C33 -/

/-- **C33.** A definition that fails changes neither the functions nor their order, nor
the history, nor the operators (name, number, arity, precedence, address), nor what is
found under a name, nor how a text is cut into tokens and parsed. -/
theorem C33_unchanged (K : Client V ε ρ) (s s' : Session V ρ) (hs : Reachable K s) (input : Str)
    (h : definitionExec K s input = .ok (s', false)) :
    s'.funs = s.funs ∧ s'.hist = s.hist ∧ s'.ctx.ops = s.ctx.ops ∧
    (∀ n pl, s'.ctx.lookup n pl = s.ctx.lookup n pl) ∧
    (∀ text, tokenize s'.ctx.keywords text = tokenize s.ctx.keywords text) ∧
    ∀ (strtod : Str → Option V) text, parseInput s'.ctx strtod text = parseInput s.ctx strtod text := by
  obtain ⟨D, hD⟩ := hs.sess
  rcases definitionExec_spec hD h with ⟨-, h⟩ | ⟨h, -⟩
  · have h1 := h.holds _ hD.ctx
    refine ⟨h.funs, h.hist, h.ops, ?_, ?_, ?_⟩
    · intro n pl
      rw [h1.like.inv.lookup, hD.ctx.like.inv.lookup, h.ops]
    · exact h1.like.tokenize hD.ctx.like
    · exact h1.parse hD.ctx
  · cases h

/-- **C33**, from then on: if the world outside is as before, too, no later input can
tell the state from the one before the failed definition: outcome and results are
the same, and so again are the states after it. -/
theorem C33_invisible (K : Client V ε ρ) (s s' : Session V ρ) (hs : Reachable K s) (input : Str)
    (h : definitionExec K s input = .ok (s', false)) (hw : s'.world = s.world) : Alike s s' := by
  obtain ⟨D, hD⟩ := hs.sess
  rcases definitionExec_spec hD h with ⟨-, h⟩ | ⟨h, -⟩
  · exact ⟨h.funs, h.hist, hw, _, hD.ctx, h.holds _ hD.ctx⟩
  · cases h

theorem C33_later (K : Client V ε ρ) (s s' : Session V ρ) (h : Alike s s') (hs : Reachable K s)
    (hs' : Reachable K s') (input : Str) :
    OutRel (Both _) (definitionExec K s input) (definitionExec K s' input) ∧
    OutRel (Both _) (evaluationExec K s input) (evaluationExec K s' input) ∧
    OutRel (Both _) (Out.of (clearExec s input)) (Out.of (clearExec s' input)) := by
  obtain ⟨D, hD⟩ := hs.sess
  obtain ⟨D', hD'⟩ := hs'.sess
  exact ⟨alike_definition h input, alike_evaluation h input, alike_clear h hD hD' input⟩

/-! ## C35 -/

/-- **C35.** Whatever has been entered, each name and placement of the initial context
still gives the same operator; under prefix, infix and postfix placement nothing else
has been added; and the operator for juxtaposition is still the product. -/
theorem C35_permanent (K : Client V ε ρ) (s : Session V ρ) (hs : Reachable K s) (c : Ctx)
    (hc : arithCtx = .ok c) :
    (∀ n pl a o, c.lookup n pl = .ok (some (a, o)) → s.ctx.lookup n pl = .ok (some (a, o))) ∧
    (∀ n pl, pl ≠ .function → s.ctx.lookup n pl = c.lookup n pl) ∧
    s.ctx.env.glue = c.env.glue := by
  obtain ⟨D, hD⟩ := hs.sess
  obtain ⟨c', h1, h2⟩ := arithCtx_ok
  rw [hc] at h1
  cases h1
  have hb := arithCtx_builtin hc
  obtain ⟨as, h3, h4⟩ := hD.ctx.ops
  refine ⟨?_, ?_, ?_⟩
  · intro n pl a o h
    rw [h2.inv.lookup, hb] at h
    rw [hD.ctx.like.inv.lookup, h4, findOp_append]
    simp only [Res.ok.injEq] at h
    rw [h]
    rfl
  · intro n pl hpl
    rw [h2.inv.lookup, hb, hD.ctx.like.inv.lookup, h4, findOp_append]
    have : Ctx.findOp (as.zip (D.map (·.op))) n pl = none := by
      unfold Ctx.findOp
      rw [List.find?_eq_none]
      intro p hp
      have hm : p.2 ∈ D.map (·.op) := by
        have := List.mem_map_of_mem (f := (·.2)) hp
        rwa [zip_snd h3] at this
      simp only [Bool.and_eq_true, beq_iff_eq, not_and]
      intro _
      rw [(hD.ctx.user _ hm).placement]
      exact fun h => hpl h.symm
    rw [this, Option.or_none]
  · rw [hD.ctx.like.glue_env, h2.glue_env]

/-- The initial context has, for instance, the sine and the product. -/
example : ∃ c, arithCtx = .ok c ∧ (∃ a o, c.lookup "sin".toList .function = .ok (some (a, o))) ∧
    ∃ a o, c.lookup "*".toList .infix = .ok (some (a, o)) := by
  obtain ⟨c, h1, h2⟩ := arithCtx_ok
  refine ⟨c, h1, ?_, ?_⟩ <;>
  · rw [h2.inv.lookup, arithCtx_builtin h1]
    exact ⟨_, _, rfl⟩

/-! ## C36 -/

/-- **C36**, `clear`: it succeeds, there are no functions any more, the history is as it
was, and the operators, names and the reading of texts are those of the initial
context. -/
theorem C36_all (K : Client V ε ρ) (s : Session V ρ) (hs : Reachable K s) (c : Ctx) (hc : arithCtx = .ok c) :
    ∃ s', clearExec s "clear".toList = .ok (s', true) ∧ s'.funs = [] ∧ s'.hist = s.hist ∧
      s'.world = s.world ∧ s'.ctx.ops = c.ops ∧
      (∀ n pl, s'.ctx.lookup n pl = c.lookup n pl) ∧
      ∀ (strtod : Str → Option V) text, parseInput s'.ctx strtod text = parseInput c strtod text := by
  obtain ⟨D, hD⟩ := hs.sess
  obtain ⟨d, h1, h2⟩ := clearExec_all hD
  obtain ⟨c', h3, h4⟩ := arithCtx_ok
  rw [hc] at h3
  cases h3
  have hb := arithCtx_builtin hc
  have hops : d.ops = c.ops := by
    obtain ⟨as, h5, h6⟩ := h2.ops
    rw [h6, hb]
    simp
  have hcH : Holds c [] := ⟨h4, ⟨[], rfl, by simpa using hb⟩, by simp⟩
  refine ⟨_, h1, rfl, rfl, rfl, hops, ?_, ?_⟩
  · intro n pl
    rw [h2.like.inv.lookup, h4.inv.lookup, hops]
  · exact fun strtod text => h2.parse hcH strtod text

/-- **C36**, `clear f`: if `f` is one of the functions, exactly it is removed, the others
keep their operator, parameters and body, and history and world are as they were;
otherwise the command fails and changes nothing. -/
theorem C36_one (K : Client V ε ρ) (s : Session V ρ) (hs : Reachable K s) (D : List (FunDef V)) (hD : Sess s D)
    (f : Str) :
    (clearExec s ("clear ".toList ++ f) = .ok (s, false) ∧ ∀ d ∈ D, d.op.name ≠ f) ∨
    ∃ s' A d B, clearExec s ("clear ".toList ++ f) = .ok (s', true) ∧ D = A ++ d :: B ∧ d.op.name = f ∧
      s'.hist = s.hist ∧ s'.world = s.world ∧ Sess s' (A ++ B) := by
  have hi : "clear ".toList ++ f ≠ clearCommand := by
    intro h
    have := congrArg List.length h
    simp [clearCommand] at this
  have hdrop : ("clear ".toList ++ f).drop (clearCommand.length + 1) = f := rfl
  rcases clearExec_one hD hi with ⟨h1, h2⟩ | ⟨s', d, h1, h2, h3, h4, h5, h6⟩
  · left
    exact ⟨h1, h2⟩
  · right
    obtain ⟨A, B, hAB⟩ := List.append_of_mem h2
    refine ⟨s', A, d, B, h1, hAB, h3, h4, h5, ?_⟩
    rw [hdrop] at h6 h3
    rw [← h3, filter_names hD.names hAB] at h6
    exact h6

/-! ## C32 and C37 -/

/-- Definitions in which no bracket occurs, made while the number of operators is not
the number of an operator in use. -/
def TidyDef (s : Session V ρ) (input : Str) : Prop :=
  '[' ∉ input ∧ ∀ p ∈ s.ctx.ops, p.2.id < s.ctx.ops.length

theorem Tidy.congr {s s' : Session V ρ} (h : Tidy s) (hc : s'.ctx.ops = s.ctx.ops) (hf : s'.funs = s.funs) :
    Tidy s' := ⟨hc ▸ h.ids, hf ▸ h.plain, hf ▸ h.bodies⟩

theorem Reach.tidy {K : Client V ε ρ} (hK : SimpKeeps K) (hf : K.fuel < sizeMax) {C : Str → Prop} {s : Session V ρ}
    (h : Reach K TidyDef C s) : Tidy s := by
  induction h with
  | @start w s h =>
    have hs := initSession_sess h
    have hfuns : s.funs = [] := by
      have := hs.rules.length_eq
      simpa using this
    refine ⟨?_, by simp [hfuns], by simp [hfuns]⟩
    rw [hs.ctx.ids, List.map_nil, List.append_nil]
    decide +kernel
  | define h0 h1 h2 h3 ih =>
    obtain ⟨D, hD⟩ := h0.sess
    rcases definitionExec_spec hD h3 with ⟨-, h⟩ | ⟨-, d, -, h, hd, rule, hr⟩
    · exact Tidy.congr ih h.ops h.funs
    · exact Tidy.define hK hf hD ih h1.2 h1.1 h hd hr
  | @clear s s' input r h0 _ _ h3 ih =>
    obtain ⟨D, hD⟩ := h0.sess
    have hsub : List.Sublist (s'.ctx.ops.map (·.2.id)) (s.ctx.ops.map (·.2.id)) ∧ ∀ r ∈ s'.funs, r ∈ s.funs := by
      by_cases hi : input = clearCommand
      · subst hi
        obtain ⟨c, h1, h2⟩ := clearExec_all hD
        rw [h1] at h3
        simp only [Res.ok.injEq, Prod.mk.injEq] at h3
        obtain ⟨rfl, -⟩ := h3
        refine ⟨?_, by simp⟩
        rw [h2.ids, hD.ctx.ids]
        simp
      · rcases clearExec_one hD hi with ⟨h1, -⟩ | ⟨s2, d, h1, -, -, -, -, h2⟩
        · rw [h1] at h3
          simp only [Res.ok.injEq, Prod.mk.injEq] at h3
          obtain ⟨rfl, -⟩ := h3
          exact ⟨List.Sublist.refl _, fun _ h => h⟩
        · have hfs : ∀ r ∈ s2.funs, r ∈ s.funs := by
            have h1' := h1
            simp only [clearExec, hi, if_false] at h1'
            obtain ⟨lk, -, h1'⟩ := Res.bind_eq_ok.1 h1'
            cases lk with
            | none =>
              simp at h1'
            | some x =>
              obtain ⟨a, o⟩ := x
              simp only at h1'
              cases htk : takeRule o s.funs with
              | none => rw [htk] at h1'; simp at h1'
              | some z =>
                obtain ⟨q, rest⟩ := z
                rw [htk] at h1'
                obtain ⟨c, -, h1'⟩ := Res.bind_eq_ok.1 h1'
                simp only [Res.pure_eq, Res.ok.injEq, Prod.mk.injEq] at h1'
                obtain ⟨rfl, -⟩ := h1'
                have : ∀ (rs : List (RewriteRule V)) q rest, takeRule o rs = some (q, rest) → ∀ r ∈ rest, r ∈ rs := by
                  intro rs
                  induction rs with
                  | nil => intro q rest h; cases h
                  | cons r rs ih =>
                    intro q rest h
                    simp only [takeRule] at h
                    split at h
                    · cases h; exact fun r hr => by simp [hr]
                    · split at h
                      · rename_i q' rest' hq
                        cases h
                        intro x hx
                        rcases List.mem_cons.mp hx with rfl | hx
                        · simp
                        · exact List.mem_cons_of_mem _ (ih _ _ hq x hx)
                      · cases h
                exact this _ _ _ htk
          rw [h1] at h3
          simp only [Res.ok.injEq, Prod.mk.injEq] at h3
          obtain ⟨rfl, -⟩ := h3
          refine ⟨?_, hfs⟩
          rw [h2.ctx.ids, hD.ctx.ids, List.map_append, List.map_append]
          refine List.Sublist.append (List.Sublist.refl _) ?_
          exact ((List.filter_sublist).map _).map _
    exact ⟨List.Nodup.sublist hsub.1 ih.ids, fun r hr => ih.plain r (hsub.2 r hr),
      fun r hr => ih.bodies r (hsub.2 r hr)⟩
  | evaluate _ h1 ih =>
    obtain ⟨h2, h3, -⟩ := evaluationExec_spec h1
    exact Tidy.congr ih (by rw [h2]) h3
  | outside h w _ ih => exact Tidy.congr ih rfl rfl

/-- Histories in which all functions are cleared together are among them. -/
theorem Reach.noSingleClear {K : Client V ε ρ} {s : Session V ρ}
    (h : Reach K (fun _ input => '[' ∉ input) (fun input => input = "clear".toList) s) :
    Reach K TidyDef (fun _ => True) s ∧ ∀ p ∈ s.ctx.ops, p.2.id < s.ctx.ops.length := by
  induction h with
  | @start w s h =>
    refine ⟨.start h, ?_⟩
    have hs := initSession_sess h
    have : s.ctx.ops = builtin := by
      obtain ⟨as, h5, h6⟩ := hs.ctx.ops
      rw [h6]; simp
    rw [this]
    decide +kernel
  | define h0 h1 h2 h3 ih =>
    refine ⟨.define ih.1 ⟨h1, ih.2⟩ h2 h3, ?_⟩
    obtain ⟨D, hD⟩ := h0.sess
    rcases definitionExec_spec hD h3 with ⟨-, h⟩ | ⟨-, d, -, h, hd, rule, hr⟩
    · rw [h.ops]; exact ih.2
    · intro p hp
      have hm : p.2 ∈ builtin.map (·.2) ++ (D ++ [d]).map (·.op) := by
        rw [← h.ctx.snd]; exact List.mem_map_of_mem hp
      rw [h.ctx.length]
      simp only [List.length_map, List.length_append, List.length_singleton]
      rw [List.map_append, ← List.append_assoc, ← hD.ctx.snd] at hm
      rcases List.mem_append.mp hm with hm | hm
      · obtain ⟨q, hq, hqp⟩ := List.mem_map.mp hm
        have := ih.2 q hq
        rw [hD.ctx.length, List.length_map] at this
        rw [← hqp]
        omega
      · simp only [List.map_cons, List.map_nil, List.mem_singleton] at hm
        rw [hm, hd.id]
        omega
  | @clear s s' input r h0 h1 h2 h3 ih =>
    refine ⟨.clear ih.1 trivial h2 h3, ?_⟩
    obtain ⟨D, hD⟩ := h0.sess
    subst h1
    obtain ⟨c, g1, g2⟩ := clearExec_all hD
    have g1' : clearExec s "clear".toList = .ok ({ s with ctx := c, funs := [] }, true) := g1
    rw [g1'] at h3
    simp only [Res.ok.injEq, Prod.mk.injEq] at h3
    obtain ⟨rfl, -⟩ := h3
    have : c.ops = builtin := by
      obtain ⟨as, h5, h6⟩ := g2.ops
      rw [h6]; simp
    simp only [this]
    decide +kernel
  | evaluate _ h1 ih =>
    obtain ⟨h2, -, -⟩ := evaluationExec_spec h1
    rw [h2]
    exact ⟨.evaluate ih.1 h1, ih.2⟩
  | outside h w _ ih => exact ⟨.outside h w ih.1, ih.2⟩

/-- **C32**, what a definition defines: after success there is exactly one function more.
Its name is the first token left of the first `=`, a name that was not taken; its
parameters are, in order, the operands of the left side read as a call of the new
function; its body is the right side, parsed and simplified with the functions there
were before; it does not occur in its own definition. -/
theorem C32_defines (K : Client V ε ρ) (s s' : Session V ρ) (D : List (FunDef V)) (hD : Sess s D) (input : Str)
    (h : definitionExec K s input = .ok (s', true)) :
    ∃ d left right, Sess s' (D ++ [d]) ∧ s'.hist = s.hist ∧
      input = left ++ '=' :: right ∧ '=' ∉ left ∧
      ((tokenize s.ctx.keywords left).filter fun t => !headIs isSpace t).head? = some d.op.name ∧
      s.ctx.lookup d.op.name .function = .ok none ∧
      (∃ c o q cs i, Holds c (D.map (·.op) ++ [o]) ∧ o.name = d.op.name ∧ o.placement = .function ∧
        parseEasy c K.strtod left = .ok (some (.op q cs i)) ∧
        List.Forall₂ (fun c n => ∃ x i, c = Tree.var n x i) cs d.params) ∧
      d.params.Nodup ∧
      ∃ rt, parseEasy s'.ctx K.strtod right = .ok (some rt) ∧ findOpNode d.op.id rt [] = none ∧
        arithSimplify K s.funs s.hist s.world rt = .ok (s'.world, some d.body) := by
  rcases definitionExec_spec hD h with ⟨h, -⟩ | ⟨-, d, h1, h2, h3, -⟩
  · cases h
  · obtain ⟨k, hk, h4, ⟨c, o, q, cs, i, g1, g2, g3, -, g5, g6⟩, rt, h5, h6, h7⟩ := h3.text
    have hcut : ∀ (l : Str) m k, strstrFrom "=".toList l m = some k →
        m ≤ k ∧ l = l.take (k - m) ++ '=' :: l.drop (k - m + 1) ∧ '=' ∉ l.take (k - m) := by
      intro l
      induction l with
      | nil => intro m k h; simp [strstrFrom, List.isPrefixOf] at h
      | cons a l ih =>
        intro m k h
        simp only [strstrFrom] at h
        split at h
        · rename_i hp
          simp only [Option.some.injEq] at h
          subst h
          simp [List.isPrefixOf] at hp
          simp [← hp]
        · rename_i hp
          obtain ⟨e1, e2, e3⟩ := ih (m + 1) k h
          have e4 : k - m = (k - (m + 1)) + 1 := by omega
          rw [e4]
          simp only [List.take_succ_cons, List.drop_succ_cons, List.cons_append, List.mem_cons, not_or]
          refine ⟨by omega, by rw [← e2], ?_, e3⟩
          intro ha
          apply hp
          simp [List.isPrefixOf, ← ha]
    obtain ⟨-, e2, e3⟩ := hcut input 0 k hk
    simp only [Nat.sub_zero] at e2 e3
    refine ⟨d, input.take k, input.drop (k + 1), h2, h1, e2, e3, h4, ?_, ⟨c, o, q, cs, i, g1, g2, g3, g5, g6⟩,
      ?_, rt, h5, h6, h7⟩
    · obtain ⟨r, r1, r2⟩ := hD.ctx.lookup d.op.name .function
      rw [h3.fresh] at r2
      rw [r1, Option.map_eq_none_iff.mp r2]
    · obtain ⟨r, hr⟩ : ∃ r, IsDef r d := by
        obtain ⟨r, -, hr⟩ := forall2_right h2.rules (b := d) (by simp)
        exact ⟨r, hr⟩
      exact hr.nodup

/-- **C32** (partial: histories as in `TidyDef`, `simplify` introduces no user
functions): expanding an entered expression ends, the result has no user function any
more, and it is the expression in which each call is replaced by the body of the
function, with the arguments for the parameters.  `n` is the number of steps; the
program gives up after `cap` = SIZE_MAX steps. -/
theorem C32_expansion_partial (K : Client V ε ρ) (hK : SimpKeeps K) (hf : K.fuel < sizeMax) (C : Str → Prop)
    (s : Session V ρ) (hs : Reach K TidyDef C s) (D : List (FunDef V)) (hD : Sess s D) (input : Str) (t : Tree V)
    (hp : parseEasy s.ctx K.strtod input = .ok (some t)) :
    ∃ n, ∀ cap fuel, n < cap → n < fuel → ∃ u k,
      applyRuleset K.eqV (fun _ => true) s.funs cap fuel t = .ok (some (u, k)) ∧
      Expanded D t u ∧ AllOps (fun o _ => ∀ d ∈ D, d.op.id ≠ o.id) u := by
  have htab := hD.table (hs.tidy hK hf)
  have hk := parse_known hD.ctx hD.arity hp
  refine ⟨stepBound D t, ?_⟩
  intro cap fuel hcap hfuel
  obtain ⟨k, h1, h2⟩ := expand_loop htab hD.rules K.eqV (fun _ => true) cap fuel 0 t hk hfuel (by omega)
  refine ⟨_, k, h1, expandD_spec htab t hk, h2.mono ?_⟩
  intro o _ ho d hd
  have := htab.user d hd
  have := ho.id
  omega

theorem Inst.unique {σ : Str → Option (List (Tree V))} {g : Nat → Nat} {t : Tree V} {l l' : List (Tree V)}
    (h : Inst σ g t l) (h' : Inst σ g t l') : l = l' := by
  induction h generalizing l' with
  | const => cases h'; rfl
  | var h1 =>
    cases h' with
    | var h2 => rw [h1] at h2; simpa using h2
  | @op o cs i parts hl _ ih =>
    cases h' with
    | @op _ _ _ parts' hl' h2 =>
      have : parts = parts' := by
        refine List.ext_getElem (by omega) ?_
        intro k hk hk'
        exact ih k (by omega) (h2 k (by omega))
      rw [this]

/-- The expansion is determined by the definitions. -/
theorem C32_unique {D : List (FunDef V)} (hids : (D.map (·.op)).Nodup) {t u u' : Tree V} (h : Expanded D t u)
    (h' : Expanded D t u') : u = u' := by
  induction h generalizing u' with
  | const => cases h'; rfl
  | var => cases h'; rfl
  | @op o cs ds i hl h1 h2 ih =>
    cases h' with
    | @op _ _ es _ hl' _ h3 =>
      congr 1
      refine List.ext_getElem (by omega) ?_
      intro k hk hk'
      exact ih k (by omega) (h3 k (by omega))
    | call hl' hd => exact absurd rfl (h1 _ hd)
  | @call d cs ds i u hl hd hlen h2 hi ih =>
    revert hids
    generalize hq : Tree.op d.op cs i = q at h'
    intro hids
    cases h' with
    | const => cases hq
    | var => cases hq
    | op hl' h3 => cases hq; exact absurd rfl (h3 _ hd)
    | @call e _ es _ _ hl' he hlen' h3 hi' =>
      simp only [Tree.op.injEq] at hq
      obtain ⟨hde, rfl, rfl⟩ := hq
      have : d = e := List.inj_on_of_nodup_map hids hd he hde
      subst this
      have hds : ds = es := by
        refine List.ext_getElem (by omega) ?_
        intro k hk hk'
        exact ih k (by omega) (h3 k (by omega))
      subst hds
      have := Inst.unique hi hi'
      simpa using this

/-- **C37** (partial: histories as in `TidyDef`): evaluating a call `f(args)` goes by the
definition of `f` itself: of all functions only `f` has its number, and the call is
expanded to the body of `f`. -/
theorem C37_own_definition_partial (K : Client V ε ρ) (hK : SimpKeeps K) (hf : K.fuel < sizeMax) (C : Str → Prop)
    (s : Session V ρ) (hs : Reach K TidyDef C s) (D : List (FunDef V)) (hD : Sess s D) (d : FunDef V) (hd : d ∈ D) :
    (∀ e ∈ D, e.op.id = d.op.id → e = d) ∧
    (∃ a, s.ctx.lookup d.op.name .function = .ok (some (a, d.op))) ∧
    ∀ (args : List (Tree V)) (i : Nat), args.length = d.params.length →
      (∀ a ∈ args, AllOps BuiltIn a) →
      ∃ u n, Inst (d.assign args) (fun _ => i) d.body [u] ∧ ∀ cap fuel, n < cap → n < fuel → ∃ k,
        applyRuleset K.eqV (fun _ => true) s.funs cap fuel (.op d.op args i) = .ok (some (u, k)) := by
  have htab := hD.table (hs.tidy hK hf)
  refine ⟨fun e he h => List.inj_on_of_nodup_map htab.ids he hd h, ?_, ?_⟩
  · have hm := List.mem_map_of_mem (f := fun d : FunDef V => d.op) hd
    obtain ⟨r, h1, h2⟩ := hD.ctx.lookup d.op.name .function
    have hb := hD.ctx.notBuiltin (u := d.op) hm
    rw [← Option.map_eq_none_iff (f := (·.2)), findOp_snd] at hb
    simp only [arithEnv, List.find?_append] at h2
    rw [hb, Option.none_or] at h2
    cases hf : List.find? (fun o : Op => o.name == d.op.name && o.placement == .function) (D.map (·.op)) with
    | none =>
      have := List.find?_eq_none.mp hf d.op hm
      simp [(hD.ctx.user _ hm).placement] at this
    | some u =>
      have g1 := List.find?_some hf
      simp only [Bool.and_eq_true, beq_iff_eq] at g1
      have g2 := List.mem_of_find?_eq_some hf
      have g3 := List.inj_on_of_nodup_map hD.ctx.nodup g2 hm g1.1
      rw [hf] at h2
      cases r with
      | none => cases h2
      | some x =>
        obtain ⟨a, o⟩ := x
        simp only [Option.map_some, Option.some.injEq] at h2
        rw [h1, h2, g3]
        exact ⟨a, rfl⟩
  · intro args i hl ha
    have hk : AllOps (Known D) (.op d.op args i) :=
      .op (.inr ⟨d, hd, rfl, hl.symm⟩) fun a h => (ha a h).mono fun _ _ h => .inl h
    have he : expandD D (.op d.op args i) = substCall d.params args i d.body := by
      simp only [expandD, htab.find hd, expandDs_eq]
      congr 1
      conv => rhs; rw [← List.map_id args]
      exact List.map_congr_left fun a h => expandD_id htab a (ha a h)
    refine ⟨substCall d.params args i d.body, stepBound D (.op d.op args i), ?_, ?_⟩
    · exact substCall_inst (by omega) i d.body (htab.closed d hd)
    · intro cap fuel h1 h2
      obtain ⟨k, h3, -⟩ := expand_loop htab hD.rules K.eqV (fun _ => true) cap fuel 0 _ hk h2 (by omega)
      rw [he] at h3
      exact ⟨k, h3⟩

/-! ## C38 -/

/-- **C38**, recording: an evaluation whose result is a constant appends it to the
history; one that fails or has another result leaves the history as it is. -/
theorem C38_record (K : Client V ε ρ) (s s' : Session V ρ) (input : Str) (r : Option (Tree V))
    (h : evaluationExec K s input = .ok (s', r)) :
    (∀ v i, r = some (.const v i) → s'.hist = s.hist ++ [v]) ∧
    ((∀ v i, r ≠ some (.const v i)) → s'.hist = s.hist) := by
  obtain ⟨-, -, h⟩ := evaluationExec_spec h
  refine ⟨?_, ?_⟩
  · rintro v i rfl
    exact h
  · intro hr
    cases r with
    | none => exact h
    | some t =>
      cases t with
      | const v i => exact absurd rfl (hr v i)
      | var n x i => exact h
      | op o cs i => exact h

/-- **C38**, lookup: of `n` recorded results number `k` is the `k`-th most recent, and there
is none from number `n` on. -/
theorem C38_lookup (h : List V) (k : Nat) :
    historyGet h k = h.reverse[k]? ∧ (historyGet h k = none ↔ h.length ≤ k) := by
  unfold historyGet
  split
  · rename_i hk
    simp [hk]
  · rename_i hk
    simp only [Nat.not_le] at hk
    rw [List.getElem?_reverse hk]
    refine ⟨rfl, ?_⟩
    simp only [List.getElem?_eq_none_iff]
    omega

/-! ## C34 -/

/-- Delimiters only directly inside the parentheses of functions. -/
def DelimsOk (text : Str) : Prop := ∀ c, ArithLike c → delimsOk false [] (tokenize c.keywords text) = true

theorem parseEasy_total {c : Ctx} (hc : ArithLike c) {text : Str} (h : DelimsOk text) (strtod : Str → Option V) :
    ∃ r, parseEasy c strtod text = .ok r := by
  unfold parseEasy
  rcases C14_no_crash_calculator_partial c hc strtod text (h c hc) with ⟨t, ht⟩ | ⟨e, k, he⟩
  · exact ⟨some t, by simp [ht]⟩
  · exact ⟨none, by simp [he]⟩

theorem applyLoop_total {D : List (FunDef V)} {rules : List (RewriteRule V)} (h : Table D)
    (hr : List.Forall₂ IsDef rules D) (eqV : V → V → Bool) (checker : Tree V → Bool) (cap : Nat) :
    ∀ (fuel counter : Nat) (t : Tree V), AllOps (Known D) t →
      ∃ r, applyLoop eqV checker rules cap fuel counter t = .ok r := by
  intro fuel
  induction fuel with
  | zero => intro _ _ _; exact ⟨none, rfl⟩
  | succ fuel ih =>
    intro counter t ht
    rcases expand_step h hr eqV checker t ht with ⟨h3, h4⟩ | ⟨t', h3, h4, h5, h6⟩
    · exact ⟨some (t, counter), by simp [applyLoop, h3]⟩
    · simp only [applyLoop, h3, Res.bind_ok]
      split
      · exact ⟨_, rfl⟩
      · exact ih _ _ h6

/-- `hang` or a normal return. -/
def NoCrash {α : Type} (x : Out α) : Prop := x = .hang ∨ ∃ a, x = .ok a

theorem NoCrash.bind {α β : Type} {x : Out α} {f : α → Out β} (h : NoCrash x)
    (hf : ∀ a, x = .ok a → NoCrash (f a)) : NoCrash (x >>= f) := by
  rcases h with rfl | ⟨a, rfl⟩
  · exact .inl rfl
  · exact hf a rfl

theorem noCrash_of {α : Type} {x : Res α} (h : ∃ a, x = .ok a) : NoCrash (Out.of x) := by
  obtain ⟨a, rfl⟩ := h
  exact .inr ⟨a, rfl⟩

/-- `hang`, a normal return, or, if `B` holds, a crash. -/
def NoCrashBut (B : Prop) {α : Type} (x : Out α) : Prop := x = .hang ∨ (∃ a, x = .ok a) ∨ (x = .ub ∧ B)

theorem NoCrash.but {B : Prop} {α : Type} {x : Out α} (h : NoCrash x) : NoCrashBut B x :=
  h.imp_right .inl

theorem NoCrash.bind_but {B : Prop} {α β : Type} {x : Out α} {f : α → Out β} (h : NoCrash x)
    (hf : ∀ a, x = .ok a → NoCrashBut B (f a)) : NoCrashBut B (x >>= f) := by
  rcases h with rfl | ⟨a, rfl⟩
  · exact .inl rfl
  · exact hf a rfl

/-- What is demanded of `simplify` for C34: it does not crash on expressions without user functions. -/
def SimpSafe (K : Client V ε ρ) : Prop :=
  ∀ w h t, AllOps BuiltIn t → NoCrash (K.simp w h t)

theorem arithSimplify_noCrash {K : Client V ε ρ} (hT : SimpSafe K) (hf : K.fuel < sizeMax)
    {s : Session V ρ} {D : List (FunDef V)} (h : Sess s D) (ht : Tidy s) {t : Tree V} (hk : AllOps (Known D) t)
    (w : ρ) (hist : List V) : NoCrash (arithSimplify K s.funs hist w t) := by
  obtain ⟨r, hr⟩ := applyLoop_total (h.table ht) h.rules K.eqV (fun _ => true) sizeMax K.fuel 0 t hk
  unfold arithSimplify applyRuleset
  rw [hr]
  cases r with
  | none => exact .inl rfl
  | some x =>
    obtain ⟨t', n⟩ := x
    obtain ⟨-, h3⟩ := expand_ok (h.table ht) h.rules _ _ sizeMax K.fuel 0 t t' n hk (by omega) hr
    simp only [Out.ofFuel, Out.bind_ok]
    refine NoCrash.bind (hT w hist t' h3) ?_
    rintro ⟨w', r⟩ -
    cases r with
    | error e => exact .inr ⟨_, rfl⟩
    | ok u => exact .inr ⟨_, rfl⟩

/-- The right side of a definition can be read, but its simplification reports an error. -/
def RightFails (K : Client V ε ρ) (s : Session V ρ) (right : Str) : Prop :=
  ∃ c us rt w', Holds c us ∧ parseEasy c K.strtod right = .ok (some rt) ∧
    arithSimplify K s.funs s.hist s.world rt = .ok (w', none)

theorem definitionFail_noCrash {s : Session V ρ} {c : Ctx} {us : List Op} {o : Op} (hc : Holds c (us ++ [o])) (w : ρ) :
    NoCrash (definitionFail s c w o.name) := by
  obtain ⟨d, h1, -⟩ := hc.deleteOp (u := o) (by simp)
  simp only [definitionFail, h1, Out.of_ok, Out.bind_ok]
  exact .inr ⟨_, rfl⟩

theorem addFunctionRight_noCrash {K : Client V ε ρ} (hT : SimpSafe K) (hf : K.fuel < sizeMax) {s : Session V ρ}
    {D : List (FunDef V)} (h : Sess s D) (ht : Tidy s) {c : Ctx} {o : Op}
    (hc : Holds c (D.map (·.op) ++ [o])) {right : Str} (hr : DelimsOk right) {cs : List (Tree V)}
    {i : Nat} {ps : List Str} (ha : o.arity = .fixed ps.length)
    (hv : List.Forall₂ (fun c n => ∃ x i, c = Tree.var n x i) cs ps) (hl : ps.length ≤ maxMappedVars) :
    NoCrashBut (RightFails K s right) (addFunctionRight K s c o.name right (.op o cs i) o) := by
  unfold addFunctionRight
  refine NoCrash.bind_but (noCrash_of (parseEasy_total hc.like hr K.strtod)) ?_
  intro p hp
  rw [Out.of_eq_ok] at hp
  cases p with
  | none => exact (definitionFail_noCrash hc _).but
  | some rt =>
    simp only
    split
    · exact (definitionFail_noCrash hc _).but
    · rename_i hno
      simp only [Bool.not_eq_true, Option.isSome_eq_false_iff, Option.isNone_iff_eq_none] at hno
      have hk : AllOps (Known (D ++ [⟨o, ps, rt⟩])) rt := by
        refine parse_known (D := D ++ [⟨o, ps, rt⟩]) ?_ ?_ hp
        · simpa using hc
        · intro d hd
          rcases List.mem_append.mp hd with hd | hd
          · exact h.arity d hd
          · simp only [List.mem_singleton] at hd
            subst hd; exact ha
      have hk2 : AllOps (Known D) rt := by
        refine (hk.and (findOpNode_none hno)).mono ?_
        rintro q n ⟨h1, h2⟩
        rcases h1 with h1 | ⟨e, he, rfl, hl⟩
        · exact .inl h1
        · rcases List.mem_append.mp he with he | he
          · exact .inr ⟨e, he, rfl, hl⟩
          · simp only [List.mem_singleton] at he
            subst he
            exact absurd rfl h2
      rcases arithSimplify_noCrash hT hf h ht hk2 s.world s.hist with hh | ⟨⟨w', u⟩, hu⟩
      · rw [hh]; exact .inl rfl
      · rw [hu]
        simp only [Out.bind_ok]
        cases u with
        | none => exact .inr (.inr ⟨rfl, c, _, rt, w', hc, hp, hu⟩)
        | some u =>
        simp only
        obtain ⟨pat, hpat⟩ := getPattern_left (o := o) (i := i) hv hl
        rw [hpat]
        simp only
        cases getRule pat u with
        | none => exact (definitionFail_noCrash hc _).but
        | some rule => exact .inr (.inl ⟨_, rfl⟩)

/-- **C34** (partial: no delimiter directly inside a parenthesis that is not that of a
function, no brackets, histories as in `TidyDef`): every definition ends with success or failure and never accesses
invalid memory, unless the right side is one whose simplification reports an error (`hang` is
the case that the expansion or simplification of the right side takes longer than `fuel`). -/
theorem C34_no_crash_partial (K : Client V ε ρ) (hK : SimpKeeps K) (hT : SimpSafe K) (hf : K.fuel < sizeMax)
    (C : Str → Prop) (s : Session V ρ) (hs : Reach K TidyDef C s) (left right : Str)
    (hl : DelimsOk left) (hr : DelimsOk right) (he : '=' ∉ left) :
    definitionExec K s (left ++ '=' :: right) = .hang ∨
    (∃ s' r, definitionExec K s (left ++ '=' :: right) = .ok (s', r)) ∨
    (definitionExec K s (left ++ '=' :: right) = .ub ∧ RightFails K s right) := by
  have htidy := hs.tidy hK hf
  obtain ⟨D, hD⟩ := hs.sess
  have hstr : strstr (left ++ '=' :: right) "=".toList = some left.length := by
    have aux : ∀ (l : Str) k, '=' ∉ l → strstrFrom "=".toList (l ++ '=' :: right) k = some (k + l.length) := by
      intro l
      induction l with
      | nil => intro k _; simp [strstrFrom, List.isPrefixOf]
      | cons c l ih =>
        intro k hc
        simp only [List.mem_cons, not_or] at hc
        have := ih (k + 1) hc.2
        simp only [List.cons_append, strstrFrom]
        rw [if_neg, this]
        · simp only [List.length_cons]; congr 1; omega
        · simp [List.isPrefixOf, hc.1]
    simpa [strstr] using aux left 0 he
  have key : NoCrashBut (RightFails K s right) (definitionExec K s (left ++ '=' :: right)) := by
    unfold definitionExec
    rw [hstr]
    have e1 : (left ++ '=' :: right).take left.length = left := by simp
    have e2 : (left ++ '=' :: right).drop (left.length + 1) = right := by
      rw [← List.drop_drop]; simp
    simp only [e1, e2]
    split
    · exact .inr (.inl ⟨_, rfl⟩)
    · rename_i name more htoks
      split
      · exact .inr (.inl ⟨_, rfl⟩)
      · rename_i hlet
        simp only [Bool.not_eq_true, Bool.not_eq_false'] at hlet
        have hw : isWord name = true := by
          refine hD.ctx.word (inp := left) ?_ hlet
          have : name ∈ (tokenize s.ctx.keywords left).filter fun t => !headIs isSpace t := by
            rw [htoks]; simp
          exact (List.mem_filter.mp this).1
        obtain ⟨lk, hlk, hlk2⟩ := hD.ctx.lookup name .function
        unfold addFunction
        simp only [hlk, Out.of_ok, Out.bind_ok]
        cases lk with
        | some x => exact .inr (.inl ⟨_, rfl⟩)
        | none =>
          simp only
          have hlk2 : (arithEnv (D.map (·.op))).lookup name .function = none := by rw [← hlk2]; rfl
          obtain ⟨o1, ho1⟩ : ∃ o1, (if more.isEmpty = true then Op.getConstant name
            else Op.getFunction name .dyn) = o1 := ⟨_, rfl⟩
          have hu1 : UserFn o1 ∧ o1.name = name := by
            subst ho1
            split
            · exact ⟨⟨rfl, rfl, hw⟩, rfl⟩
            · exact ⟨⟨rfl, rfl, hw⟩, rfl⟩
          rw [ho1]
          obtain ⟨c1, ha1, hc1, hd1, hop1⟩ := hD.ctx.addOp hu1.1 (by rw [hu1.2]; exact hlk2)
          have hn : ({ o1 with id := 58 + (D.map (·.op)).length } : Op).name = name := hu1.2
          have fail1 := fun w => (definitionFail_noCrash (s := s) hc1 w).but (B := RightFails K s right)
          rw [hn] at fail1
          simp only [ha1, Out.of_ok, Out.bind_ok]
          refine NoCrash.bind_but (noCrash_of (parseEasy_total hc1.like hl K.strtod)) ?_
          intro lt hlt
          rw [Out.of_eq_ok] at hlt
          cases lt with
          | none => exact fail1 _
          | some lt =>
            simp only
            cases hlc : leftChecks lt with
            | none => exact fail1 _
            | some lt' =>
              simp only
              obtain ⟨o, cs, cs', i, ps, rfl, rfl, hpl, hv, hv', hnd, hle⟩ := leftChecks_spec hlc
              by_cases hm : more.isEmpty = true
              · rw [if_pos hm] at ho1 ⊢
                rw [List.isEmpty_iff] at hm
                subst hm
                rw [hd1]
                simp only [Out.of_ok, Out.bind_ok]
                obtain ⟨j, hpc⟩ : ∃ j, parseTokens c1.env K.strtod (tokenize c1.keywords left) =
                    .ok (.op { o1 with id := 58 + (D.map (·.op)).length } [] j) := by
                  subst ho1
                  refine parse_constant (name := name) ?_ hw ?_ rfl rfl
                  · rw [hc1.like.tokenize hD.ctx.like]; exact htoks
                  · rw [hc1.env]
                    have : (arithEnv (D.map (·.op))).lookup name .function = none := hlk2
                    simp only [arithEnv, List.find?_append] at this ⊢
                    rw [← Option.or_assoc, this, Option.none_or]
                    simp [Op.getConstant, Op.getFunction]
                rw [parseEasy_ok, hpc] at hlt
                simp only [PRes.ok.injEq, Tree.op.injEq] at hlt
                obtain ⟨rfl, rfl, rfl⟩ := hlt
                cases hv
                cases hv'
                have := addFunctionRight_noCrash hT hf hD htidy hc1 hr (i := j) (ps := [])
                  (by subst ho1; rfl) .nil (by simp)
                simp only [hu1.2] at this ⊢
                exact this
              · rw [if_neg hm]
                obtain ⟨c2, d1, hc2, -⟩ := hD.ctx.undo hc1 hop1
                rw [hn] at d1
                simp only [d1, Out.of_ok, Out.bind_ok, Tree.numChildren]
                have hu3 : UserFn (Op.getFunction name (.fixed cs'.length)) := ⟨rfl, rfl, hw⟩
                obtain ⟨c3, g3, hc3, hd3, -⟩ := hc2.addOp hu3 hlk2
                simp only [g3, Out.of_ok, Out.bind_ok, hd3, Tree.setRootOp]
                exact addFunctionRight_noCrash hT hf hD htidy hc3 hr
                  (by rw [← hv'.length_eq]; rfl) hv' hle
  rcases key with h | ⟨⟨s', r⟩, h⟩ | h
  · exact .inl h
  · exact .inr (.inl ⟨s', r, h⟩)
  · exact .inr (.inr h)

/-- **C34**, evaluations (partial: inputs and histories as above): they end with a result or an error. -/
theorem C34_evaluation_partial (K : Client V ε ρ) (hK : SimpKeeps K) (hT : SimpSafe K) (hf : K.fuel < sizeMax)
    (C : Str → Prop) (s : Session V ρ) (hs : Reach K TidyDef C s) (input : Str) (hd : DelimsOk input) :
    evaluationExec K s input = .hang ∨ ∃ s' r, evaluationExec K s input = .ok (s', r) := by
  have htidy := hs.tidy hK hf
  obtain ⟨D, hD⟩ := hs.sess
  have key : NoCrash (evaluationExec K s input) := by
    unfold evaluationExec arithParse
    refine NoCrash.bind (NoCrash.bind (noCrash_of (parseEasy_total hD.ctx.like hd K.strtod)) ?_) ?_
    · intro p hp
      rw [Out.of_eq_ok] at hp
      cases p with
      | none => exact .inr ⟨_, rfl⟩
      | some t =>
        refine NoCrash.bind (arithSimplify_noCrash hT hf hD htidy (parse_known hD.ctx hD.arity hp) _ _) ?_
        rintro ⟨w, r⟩ -
        exact .inr ⟨_, rfl⟩
    · rintro ⟨s', r⟩ -
      cases r with
      | none => exact .inr ⟨_, rfl⟩
      | some t => cases t <;> exact .inr ⟨_, rfl⟩
  rcases key with h | ⟨⟨s', r⟩, h⟩
  · exact .inl h
  · exact .inr ⟨s', r, h⟩

end Verif.SessionProps
