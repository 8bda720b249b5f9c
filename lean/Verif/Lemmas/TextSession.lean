import Verif.Lemmas.TextHeap

/-!
# The commands with their texts in memory
-/

namespace Verif
open TextSpec ParserProps
variable {V ε ρ : Type}

/-- The session with its texts in memory is like the session whose texts are values; the results are the same. -/
def SameText {α : Type} (base : Nat → Option TextBlock) (x : TextSession V ρ × α) (y : Session V ρ × α) : Prop :=
  x.1.sess = y.1 ∧ x.2 = y.2 ∧ ∃ E, Entries x.1.sess.ctx E x.1.names ∧ Has base (nameBlocks E) x.1.mem.get

theorem nameBlocks_snoc (E : List (Nat × Op × Nat)) (e : Nat × Op × Nat) :
    nameBlocks (E ++ [e]) = nameBlocks E ++ [(e.2.2, TextBlock.text e.2.1.name)] := by simp [nameBlocks]

theorem definitionFailText_spec {base : Nat → Option TextBlock} {s : Session V ρ} {c : Ctx} {names : List (Nat × Nat)}
    {E : List (Nat × Op × Nat)} {e : Nat × Op × Nat} (w : ρ) {m : TextMem} (h : Entries c (E ++ [e]) names)
    (hm : Has base (nameBlocks (E ++ [e])) m.get) :
    OutRel (SameText base) (definitionFailText s c names w e.2.2 m) (definitionFail s c w e.2.1.name) := by
  obtain ⟨c', names', h1, h2, h3⟩ := deleteNamed_spec h hm (by simp [nameBlocks])
  rw [nameBlocks_snoc] at hm
  obtain ⟨m', h4, h5⟩ := TextSpec.Has.free (M := []) hm
  simp only [List.append_nil] at h3 h5
  simp only at h4
  unfold definitionFailText definitionFail
  simp only [h1, h2, h4, Out.of_ok, Out.bind_ok]
  exact .ok ⟨rfl, rfl, E, h3, h5⟩

theorem addFunctionRightText_spec {base : Nat → Option TextBlock} (A : TextMalloc) (K : Client V ε ρ) {s : Session V ρ}
    {c : Ctx} {names : List (Nat × Nat)} {E : List (Nat × Op × Nat)} {e : Nat × Op × Nat} (right : Str) (left : Tree V)
    (newOp : Op) {m : TextMem} (h : Entries c (E ++ [e]) names) (hm : Has base (nameBlocks (E ++ [e])) m.get) :
    OutRel (SameText base) (addFunctionRightText A K s c names e.2.2 right left newOp m)
      (addFunctionRight K s c e.2.1.name right left newOp) := by
  unfold addFunctionRightText addFunctionRight
  refine .bind (parseRawText_spec A c K.strtod right m hm) ?_
  rintro ⟨x, r, m1⟩ y ⟨rfl, hy⟩
  cases x with
  | none =>
    rcases hy with ⟨-, hy⟩ | ⟨hy, -⟩
    · exact definitionFailText_spec _ h hy
    · exact absurd rfl hy
  | some rt =>
    rcases hy with ⟨hy, -⟩ | ⟨-, hy⟩
    · cases hy
    · simp only at hy ⊢
      by_cases hf : (findOpNode newOp.id rt []).isSome = true
      · obtain ⟨f, h1, -, h2⟩ := freeResult_spec hy
        simp only [if_pos hf, h1, Out.of_ok, Out.bind_ok]
        exact definitionFailText_spec _ h h2
      · simp only [if_neg hf]
        refine .bind (simplifyText_spec K s.funs s.hist s.world rt hy) ?_
        rintro ⟨⟨w, x⟩, m2⟩ y ⟨rfl, h2⟩
        cases x with
        | none => exact .ub
        | some body =>
          simp only at h2 ⊢
          cases getPattern left [] with
          | error _ => exact .ub
          | ok pat =>
            simp only
            cases getRule pat body with
            | none => exact definitionFailText_spec _ h h2
            | some rule => exact .ok ⟨rfl, rfl, _, h, h2⟩

theorem definitionText_spec {base : Nat → Option TextBlock} (A : TextMalloc) (K : Client V ε ρ) {s : TextSession V ρ}
    {E : List (Nat × Op × Nat)} (h : Entries s.sess.ctx E s.names) (hm : Has base (nameBlocks E) s.mem.get)
    (input : Str) : OutRel (SameText base) (definitionText A K s input) (definitionExec K s.sess input) := by
  unfold definitionText definitionExec
  cases hk : strstr input "=".toList with
  | none => exact .ub
  | some k =>
    simp only
    obtain ⟨buf, T, t1, t2, t3⟩ := tokenizeAt_spec A s.sess.ctx.keywords (input.take k) s.mem hm
    have hp := pickName_spec T _ t3
    rw [← t2] at hp
    rw [t1]
    cases htoks : (tokenize s.sess.ctx.keywords (input.take k)).filter fun t => !headIs isSpace t with
    | nil =>
      rw [htoks] at hp
      obtain ⟨m', p1, p2⟩ := hp
      obtain ⟨m'', p3, p4⟩ := TextSpec.Has.free (M := []) p2
      simp only [List.append_nil] at p3 p4
      simp only [p1, p3, Out.of_ok, Out.bind_ok]
      exact .ok ⟨rfl, rfl, E, h, p4⟩
    | cons name more =>
      rw [htoks] at hp
      obtain ⟨p, m', p1, p2⟩ := hp
      rw [List.append_assoc] at p2
      obtain ⟨m1, p3, p4⟩ := TextSpec.Has.free (b := (buf, TextBlock.buffer)) p2
      simp only at p3
      have hread : m1.read p = .ok name := p4.read (by simp)
      simp only [p1, p3, hread, Out.of_ok, Out.bind_ok]
      split
      · obtain ⟨m2, p5, p6⟩ := TextSpec.Has.free (M := []) p4
        simp only [List.append_nil] at p5 p6
        simp only [p5, Out.of_ok, Out.bind_ok]
        exact .ok ⟨rfl, rfl, E, h, p6⟩
      · rename_i hlet
        simp only [Bool.not_eq_true, Bool.not_eq_false'] at hlet
        have hw : isWord name = true := by
          refine h.holds.word (inp := input.take k) ?_ hlet
          have : name ∈ (tokenize s.sess.ctx.keywords (input.take k)).filter fun t => !headIs isSpace t := by
            rw [htoks]; simp
          exact (List.mem_filter.mp this).1
        have hone : (more.length + 1 == 1) = more.isEmpty := by cases more <;> simp
        rw [hone]
        unfold addFunctionText addFunction
        obtain ⟨r, a1, a2⟩ := h.holds.lookup name .function
        simp only [hread, a1, Out.of_ok, Out.bind_ok]
        cases r with
        | some x =>
          obtain ⟨m2, p5, p6⟩ := TextSpec.Has.free (M := []) p4
          simp only [List.append_nil] at p5 p6
          simp only [p5, Out.of_ok, Out.bind_ok]
          exact .ok ⟨rfl, rfl, E, h, p6⟩
        | none =>
          simp only
          have hlk : (arithEnv (E.map (·.2.1))).lookup name .function = none := by rw [← a2]; rfl
          obtain ⟨o1, ho1⟩ : ∃ o1, (if more.isEmpty = true then Op.getConstant name
            else Op.getFunction name .dyn) = o1 := ⟨_, rfl⟩
          have hu1 : UserFn o1 ∧ o1.name = name := by
            subst ho1
            split
            · exact ⟨⟨rfl, rfl, hw⟩, rfl⟩
            · exact ⟨⟨rfl, rfl, hw⟩, rfl⟩
          rw [ho1]
          obtain ⟨c1, names1, g1, g2, h1, hd1⟩ := addNamed_spec h hu1.1 (by rw [hu1.2]; exact hlk) p
          simp only [g1, g2, Out.of_ok, Out.bind_ok]
          have hm1 : Has base (nameBlocks (E ++ [(s.sess.ctx.nextAddr, { o1 with id := 58 + E.length }, p)])) m1.get := by
            rw [nameBlocks_snoc]
            simp only [hu1.2]
            exact p4
          have fail1 : ∀ (w : ρ) (m : TextMem),
              Has base (nameBlocks (E ++ [(s.sess.ctx.nextAddr, { o1 with id := 58 + E.length }, p)])) m.get →
              OutRel (SameText base) (definitionFailText s.sess c1 names1 w p m) (definitionFail s.sess c1 w name) := by
            intro w m hx
            rw [← hu1.2]
            exact definitionFailText_spec w h1 hx
          refine .bind (parseRawText_spec A c1 K.strtod (input.take k) m1 hm1) ?_
          rintro ⟨x, r, m2⟩ y ⟨rfl, hy⟩
          cases x with
          | none =>
            rcases hy with ⟨-, hy⟩ | ⟨hy, -⟩
            · exact fail1 _ _ hy
            · exact absurd rfl hy
          | some lt =>
            rcases hy with ⟨hy, -⟩ | ⟨-, hy⟩
            · cases hy
            · obtain ⟨f, f1, -, f2⟩ := freeResult_spec hy
              simp only at f1
              simp only [f1, Out.of_ok, Out.bind_ok]
              cases leftChecks lt with
              | none => exact fail1 _ _ f2
              | some lt =>
                simp only
                unfold addFunctionOpText
                by_cases hmo : more.isEmpty = true
                · simp only [if_pos hmo, hd1, Out.of_ok, Out.bind_ok]
                  have := addFunctionRightText_spec (s := s.sess) A K (input.drop (k + 1)) lt
                    { o1 with id := 58 + E.length } h1 f2
                  simp only [hu1.2] at this ⊢
                  exact this
                · simp only [if_neg hmo]
                  obtain ⟨c2, names2, d1, d2, h2⟩ := deleteNamed_spec h1 f2 (by simp [nameBlocks])
                  simp only [List.append_nil, hu1.2] at d1 d2 h2
                  have hread2 : f.2.read p = .ok name := f2.read (by simp [nameBlocks, hu1.2])
                  simp only [d1, d2, hread2, Out.of_ok, Out.bind_ok]
                  have hu3 : UserFn (Op.getFunction name (.fixed lt.numChildren)) := ⟨rfl, rfl, hw⟩
                  obtain ⟨c3, names3, g3, g4, h3, hd3⟩ := addNamed_spec h2 hu3 hlk p
                  simp only [g3, g4, hd3, Out.of_ok, Out.bind_ok]
                  refine addFunctionRightText_spec (s := s.sess) A K (input.drop (k + 1)) _ _ h3 ?_
                  rw [nameBlocks_snoc] at f2 ⊢
                  simp only [hu1.2] at f2
                  exact f2

theorem evaluateText_spec {base : Nat → Option TextBlock} (A : TextMalloc) (K : Client V ε ρ) {s : TextSession V ρ}
    {E : List (Nat × Op × Nat)} (h : Entries s.sess.ctx E s.names) (hm : Has base (nameBlocks E) s.mem.get)
    (input : Str) : OutRel (SameText base) (evaluateText A K s input) (evaluationExec K s.sess input) := by
  unfold evaluateText evaluationExec arithParse
  have key := parseRawText_spec A s.sess.ctx K.strtod input s.mem hm
  cases hp : parseEasy s.sess.ctx K.strtod input with
  | defect => rw [hp] at key; cases hq : Out.of (parseRawText A s.sess.ctx K.strtod input s.mem) <;>
      rw [hq] at key <;> cases key; exact .defect
  | ub => rw [hp] at key; cases hq : Out.of (parseRawText A s.sess.ctx K.strtod input s.mem) <;>
      rw [hq] at key <;> cases key; exact .ub
  | ok y =>
    rw [hp] at key
    cases hq : Out.of (parseRawText A s.sess.ctx K.strtod input s.mem) with
    | hang => rw [hq] at key; cases key
    | defect => rw [hq] at key; cases key
    | ub => rw [hq] at key; cases key
    | ok x =>
      rw [hq] at key
      obtain ⟨x, r, m1⟩ := x
      cases key with
      | ok hy =>
        obtain ⟨hxy, hy⟩ := hy
        simp only at hxy hy
        subst hxy
        simp only [Out.of_ok, Out.bind_ok]
        cases x with
        | none =>
          rcases hy with ⟨-, hy⟩ | ⟨hy, -⟩
          · exact .ok ⟨rfl, rfl, E, h, hy⟩
          · exact absurd rfl hy
        | some t =>
          rcases hy with ⟨hy, -⟩ | ⟨-, hy⟩
          · cases hy
          · have key2 := simplifyText_spec K s.sess.funs s.sess.hist s.sess.world t hy
            simp only
            cases hz : arithSimplify K s.sess.funs s.sess.hist s.sess.world t with
            | hang => rw [hz] at key2; generalize simplifyText K s.sess.funs s.sess.hist s.sess.world t r m1 = q at key2 ⊢; cases key2; exact .hang
            | defect => rw [hz] at key2; generalize simplifyText K s.sess.funs s.sess.hist s.sess.world t r m1 = q at key2 ⊢; cases key2; exact .defect
            | ub => rw [hz] at key2; generalize simplifyText K s.sess.funs s.sess.hist s.sess.world t r m1 = q at key2 ⊢; cases key2; exact .ub
            | ok z =>
              rw [hz] at key2
              generalize simplifyText K s.sess.funs s.sess.hist s.sess.world t r m1 = q at key2 ⊢
              cases key2 with
              | @ok a _ hab =>
                obtain ⟨⟨w, x⟩, m2⟩ := a
                obtain ⟨rfl, h2⟩ := hab
                simp only [Out.bind_ok, Out.pure_eq] at h2 ⊢
                cases x with
                | none => exact .ok ⟨rfl, rfl, E, h, h2⟩
                | some u =>
                  cases u with
                  | const v i => exact .ok ⟨rfl, rfl, E, h, h2⟩
                  | var n x i => exact .ok ⟨rfl, rfl, E, h, h2⟩
                  | op o cs i => exact .ok ⟨rfl, rfl, E, h, h2⟩

theorem removeNodeText_spec {base : Nat → Option TextBlock} {c : Ctx} {P Q : List (Nat × Op × Nat)}
    {e : Nat × Op × Nat} {names : List (Nat × Nat)} {m : TextMem} {rule : RewriteRule V}
    (h : Entries c (P ++ e :: Q) names) (hm : Has base (nameBlocks (P ++ e :: Q)) m.get)
    (hr : rule.pattern.tree.rootOp = some e.2.1) :
    ∃ c' names' m', removeNodeOp c rule = .ok c' ∧ removeNodeText c names rule m = .ok (c', names', m') ∧
      Entries c' (P ++ Q) names' ∧ Has base (nameBlocks (P ++ Q)) m'.get := by
  obtain ⟨c', names', h1, h2, h3⟩ := deleteNamed_spec h hm (by simp [nameBlocks])
  have h4 := namePtr_spec h hr
  have hm' : Has base (nameBlocks P ++ (e.2.2, TextBlock.text e.2.1.name) :: nameBlocks Q) m.get := by
    simpa [nameBlocks] using hm
  obtain ⟨m', h5, h6⟩ := TextSpec.Has.free hm'
  simp only at h5
  refine ⟨c', names', m', by simp [removeNodeOp, hr, h1], by simp [removeNodeText, h4, h2, h5], h3, ?_⟩
  simpa [nameBlocks] using h6

theorem clearFunctionsText_spec {base : Nat → Option TextBlock} : ∀ (rs : List (RewriteRule V)) (c : Ctx)
    (E : List (Nat × Op × Nat)) (names : List (Nat × Nat)) (m : TextMem), Entries c E names →
    Has base (nameBlocks E) m.get → rs.map (fun r => r.pattern.tree.rootOp) = E.map (fun e => some e.2.1) →
    ∃ c' m', clearFunctions c rs = .ok c' ∧ clearFunctionsText c names rs m = .ok (c', [], m') ∧
      Entries c' [] [] ∧ Has base [] m'.get := by
  intro rs
  induction rs with
  | nil =>
    intro c E names m h hm hr
    cases E with
    | cons e E => cases hr
    | nil =>
      have := h.names
      simp only [List.map_nil] at this
      subst this
      exact ⟨c, m, rfl, rfl, h, hm⟩
  | cons r rs ih =>
    intro c E names m h hm hr
    cases E with
    | nil => cases hr
    | cons e E =>
      simp only [List.map_cons, List.cons.injEq] at hr
      obtain ⟨c1, names1, m1, h1, h2, h3, h4⟩ := removeNodeText_spec (P := []) h hm hr.1
      obtain ⟨c2, m2, h5, h6, h7, h8⟩ := ih c1 E names1 m1 h3 h4 hr.2
      exact ⟨c2, m2, by simp [clearFunctions, h1, h5], by simp [clearFunctionsText, h2, h6], h7, h8⟩

theorem takeRule_root (o : Op) : ∀ (rs : List (RewriteRule V)) {r : RewriteRule V} {rest : List (RewriteRule V)},
    takeRule o rs = some (r, rest) → r ∈ rs ∧ r.pattern.tree.rootOp = some o := by
  intro rs
  induction rs with
  | nil => intro r rest h; cases h
  | cons q rs ih =>
    intro r rest h
    unfold takeRule at h
    split at h
    · rename_i hq
      simp only [Option.some.injEq, Prod.mk.injEq] at h
      obtain ⟨rfl, -⟩ := h
      exact ⟨by simp, hq⟩
    · cases ht : takeRule o rs with
      | none => rw [ht] at h; cases h
      | some x =>
        rw [ht] at h
        obtain ⟨a, b⟩ := x
        simp only [Option.some.injEq, Prod.mk.injEq] at h
        obtain ⟨rfl, -⟩ := h
        obtain ⟨h1, h2⟩ := ih ht
        exact ⟨List.mem_cons_of_mem _ h1, h2⟩

theorem clearText_spec {base : Nat → Option TextBlock} {s : TextSession V ρ} {E : List (Nat × Op × Nat)}
    (h : Entries s.sess.ctx E s.names) (hm : Has base (nameBlocks E) s.mem.get)
    (hr : s.sess.funs.map (fun r => r.pattern.tree.rootOp) = E.map (fun e => some e.2.1)) (input : Str) :
    OutRel (SameText base) (Out.of (clearText s input)) (Out.of (clearExec s.sess input)) := by
  unfold clearText clearExec
  by_cases hi : input = clearCommand
  · obtain ⟨c', m', h1, h2, h3, h4⟩ := clearFunctionsText_spec s.sess.funs s.sess.ctx E s.names s.mem h hm hr
    simp only [if_pos hi, h1, h2]
    exact .ok ⟨rfl, rfl, [], h3, h4⟩
  · simp only [if_neg hi]
    obtain ⟨lk, a1, -⟩ := h.holds.lookup (input.drop (clearCommand.length + 1)) .function
    simp only [a1, Res.bind_ok]
    cases lk with
    | none => exact .ok ⟨rfl, rfl, E, h, hm⟩
    | some x =>
      obtain ⟨a, o⟩ := x
      simp only
      cases ht : takeRule o s.sess.funs with
      | none => exact .ok ⟨rfl, rfl, E, h, hm⟩
      | some x =>
        obtain ⟨r, rest⟩ := x
        obtain ⟨t1, t2⟩ := takeRule_root o _ ht
        have : some o ∈ E.map (fun e => some e.2.1) := by
          rw [← hr, ← t2]
          exact List.mem_map_of_mem (f := fun r : RewriteRule V => r.pattern.tree.rootOp) t1
        obtain ⟨e, he, heo⟩ := List.mem_map.1 this
        simp only [Option.some.injEq] at heo
        obtain ⟨P, Q, rfl⟩ := List.append_of_mem he
        obtain ⟨c', names', m', h1, h2, h3, h4⟩ := removeNodeText_spec h hm (t2.trans (by rw [heo]))
        simp only [h1, h2]
        exact .ok ⟨rfl, rfl, _, h3, h4⟩

end Verif
