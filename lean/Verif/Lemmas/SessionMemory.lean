import Verif.Lemmas.DefinitionHeapSession

/-!
# Lemmas on the commands of a session in memory
-/

namespace Verif
open MemorySpec EvaluationMemoryProps
variable {V ε : Type}

/-! ## Definitions -/

theorem parseEasy_some {c : Ctx} {strtod : Str → Option V} {inp : Str} {t : Tree V}
    (h : parseEasy c strtod inp = .ok (some t)) : (parseInput c strtod inp).2 = .ok t := by
  unfold parseEasy at h
  cases hq : (parseInput c strtod inp).2 with
  | ok t => rw [hq] at h; cases h; rfl
  | err e k => rw [hq] at h; cases h
  | okUninit => rw [hq] at h; cases h
  | ub => rw [hq] at h; cases h

theorem parseEasy_none {c : Ctx} {strtod : Str → Option V} {inp : Str}
    (h : parseEasy c strtod inp = .ok none) : ∃ e k, (parseInput c strtod inp).2 = .err e k := by
  unfold parseEasy at h
  cases hq : (parseInput c strtod inp).2 with
  | err e k => exact ⟨e, k, rfl⟩
  | ok t => rw [hq] at h; cases h
  | okUninit => rw [hq] at h; cases h
  | ub => rw [hq] at h; cases h

theorem setOpAt_spec {g : Nat → Option (Cell V)} {o o' : Op} {cs : List (Tree V)} {i p : Nat} {m : Mem V} {P : List Nat}
    (h : LeftAt g (.op o cs i) p m.get P) :
    ∃ m', setOpAt o' m (some p) = .ok m' ∧ LeftAt g (.op o' cs i) p m'.get P ∧ m'.vars = m.vars := by
  obtain ⟨ps, T, h1, h2, h3⟩ := id h.holds
  have hg := Mem.get_put m h1 (.op o' (ps.map some) i)
  have hn := h.nodup
  rw [h3, List.nodup_cons] at hn
  refine ⟨m.put p (.op o' (ps.map some) i), by simp [setOpAt, h1], ⟨⟨ps, T, by simp [hg], ?_, h3⟩, h.nodup, h.new, ?_⟩, rfl⟩
  · exact h2.congr fun a ha => by rw [hg, if_neg (fun (e : a = p) => hn.1 (e ▸ ha))]
  · intro a ha
    rw [hg, if_neg (fun e => ha (by simp [h3, e])), h.old a ha]

theorem definitionAt_spec (K : Machine V ε) (M : Malloc V) {F : Finder V} (hF : Finds K.dbl.eq F)
    (strtod : Str → Option V) {simp : Simp V} {s s' : Session V Unit} {D : List (FunDef V)} (hs : Sess s D)
    {input : Str} {b : Bool} (h : definitionExec (valueClient K simp strtod) s input = .ok (s', b)) :
    s'.hist = s.hist ∧
    ∃ n, ∀ deep ≥ n, ∀ fs S ms m, Owned m.get s.funs fs S → StoredSimp m.get simp ms →
      ∃ f m', K.definitionAt M F deep strtod fs ms s.ctx input m = .ok (s'.ctx, f, m') ∧
        Defined m.get s s' b f m' := by
  unfold definitionExec at h
  split at h
  · cases h
  · rename_i k hk
    simp only at h
    split at h
    · rename_i htoks
      simp only [Out.pure_eq, Out.ok.injEq, Prod.mk.injEq] at h
      obtain ⟨rfl, rfl⟩ := h
      refine ⟨rfl, 0, fun deep _ fs S ms m _ _ => ⟨none, m, ?_, .inl ⟨rfl, rfl, rfl, rfl⟩⟩⟩
      simp only [Machine.definitionAt, hk, htoks, Out.pure_eq]
    · rename_i name more htoks
      split at h
      · rename_i hlet
        simp only [Out.pure_eq, Out.ok.injEq, Prod.mk.injEq] at h
        obtain ⟨rfl, rfl⟩ := h
        refine ⟨rfl, 0, fun deep _ fs S ms m _ _ => ⟨none, m, ?_, .inl ⟨rfl, rfl, rfl, rfl⟩⟩⟩
        simp only [Machine.definitionAt, hk, htoks, hlet, if_true, Out.pure_eq]
      · rename_i hlet
        have hlet' := hlet
        simp only [Bool.not_eq_true, Bool.not_eq_false'] at hlet
        have hmem : name ∈ tokenize s.ctx.keywords (input.take k) := by
          have : name ∈ (tokenize s.ctx.keywords (input.take k)).filter fun t => !headIs isSpace t := by
            rw [htoks]; simp
          exact (List.mem_filter.mp this).1
        have hw := hs.ctx.word hmem hlet
        have hdef : ∀ deep fs ms m, K.definitionAt M F deep strtod fs ms s.ctx input m =
            K.addFunctionAt M F deep strtod fs ms s.ctx name (input.take k) (input.drop (k + 1)) more.isEmpty m := by
          intro deep fs ms m
          simp only [Machine.definitionAt, hk, htoks, hlet', if_false, Bool.false_eq_true]
        simp only [hdef]
        obtain ⟨lk, hlk, hlk2⟩ := hs.ctx.lookup name .function
        simp only [addFunction, hlk, Out.of_ok, Out.bind_ok] at h
        cases lk with
        | some x =>
          simp only [Out.pure_eq, Out.ok.injEq, Prod.mk.injEq] at h
          obtain ⟨rfl, rfl⟩ := h
          refine ⟨rfl, 0, fun deep _ fs S ms m _ _ => ⟨none, m, ?_, .inl ⟨rfl, rfl, rfl, rfl⟩⟩⟩
          simp [Machine.addFunctionAt, hlk]
        | none =>
          simp only [Option.map_none] at hlk2
          have hlk2 := hlk2.symm
          obtain ⟨o1, ho1⟩ : ∃ o1, (if more.isEmpty = true then Op.getConstant name
            else Op.getFunction name .dyn) = o1 := ⟨_, rfl⟩
          have hu1 : UserFn o1 ∧ o1.name = name := by
            subst ho1
            split
            · exact ⟨⟨rfl, rfl, hw⟩, rfl⟩
            · exact ⟨⟨rfl, rfl, hw⟩, rfl⟩
          rw [ho1] at h
          obtain ⟨c1, ha1, hc1, hd1, hop1⟩ := hs.ctx.addOp hu1.1 (by rw [hu1.2]; exact hlk2)
          simp only [ha1, Out.of_ok, Out.bind_ok] at h
          have hundo := hs.ctx.undo hc1 hop1
          obtain ⟨lt, hlt, h2⟩ := Out.bind_eq_ok.1 h
          clear h
          have h := h2
          clear h2
          rw [Out.of_eq_ok] at hlt
          simp only [valueClient] at hlt
          cases lt with
          | none =>
            obtain ⟨d, g1, g2, g3, g4, rfl⟩ := fail_defined h
            obtain ⟨e, j, hp⟩ := parseEasy_none hlt
            refine ⟨g4, 1, fun deep hd fs S ms m _ _ => ?_⟩
            obtain ⟨m1, e1, e2, e3⟩ := (ParserMemoryProps.C98_calculator M c1 hc1.like strtod (input.take k)
              ((m.setVar 0 none).setVar 2 none)).2 e j hp
            refine ⟨none, m1, ?_, .inl ⟨rfl, rfl, by rw [e2]; rfl, g3⟩⟩
            have hf := definitionFailAt_none (m := m1) (by simp [e3, Mem.setVar]) (by simp [e3, Mem.setVar]) hd g1
            simp only [Machine.addFunctionAt, hlk, ho1, ha1, e1, hf, g2, Out.of_ok, Out.bind_ok]
          | some lt =>
            have hp := parseEasy_some hlt
            have parsed : ∀ (m : Mem V), ∃ p1 m1 P, parseHeap M true c1.env strtod (tokenize c1.keywords (input.take k))
                  ((m.setVar 0 none).setVar 2 none) = .ok (.ok (some p1), m1) ∧
                LeftAt m.get lt p1 (m1.setVar 0 (some p1)).get P ∧ (m1.setVar 0 (some p1)).vars 2 = none ∧
                (m1.setVar 0 (some p1)).vars 0 = some p1 := by
              intro m
              obtain ⟨p1, m1, P, e1, e2, e3⟩ := (ParserMemoryProps.C98_calculator M c1 hc1.like strtod (input.take k)
                ((m.setVar 0 none).setVar 2 none)).1 lt hp
              refine ⟨p1, m1, P, e1, ⟨e2.holds, e2.nodup, ?_, ?_⟩, by simp [Mem.setVar, e3], by simp [Mem.setVar]⟩
              · intro a ha
                rcases e2.fresh a ha with h | h
                · cases h
                · exact h
              · intro a ha
                exact e2.frame a (by simp) ha
            simp only at h
            cases hlc : leftChecks lt with
            | none =>
              rw [hlc] at h
              obtain ⟨d, g1, g2, g3, g4, rfl⟩ := fail_defined h
              refine ⟨g4, calls lt, fun deep hd fs S ms m _ _ => ?_⟩
              obtain ⟨p1, m1, P, e1, e2, e3, e4⟩ := parsed m
              obtain ⟨m2, t2, f1, f2, f3, f4⟩ := (leftChecksAt_spec e2 hd).2 hlc
              obtain ⟨m3, k1, k2⟩ := definitionFailAt_left f2 (by rw [f4, e4]) (by rw [f4, e3]) (f3 ▸ hd) g1
              refine ⟨none, m3, ?_, .inl ⟨rfl, rfl, k2, g3⟩⟩
              simp only [Machine.addFunctionAt, hlk, ho1, ha1, e1, f1, k1, g2, Out.of_ok, Out.bind_ok, Bool.false_eq_true, if_false]
            | some lt' =>
              rw [hlc] at h
              simp only at h
              by_cases hmore : more.isEmpty = true
              · -- a constant
                rw [if_pos hmore] at h
                rw [List.isEmpty_iff] at hmore
                subst hmore
                simp only [List.isEmpty_nil, if_true] at ho1
                subst ho1
                simp only [hd1, Out.of_ok, Out.bind_ok] at h
                obtain ⟨hh, n, hn⟩ := addFunctionRightAt_spec K M hF strtod hc1.like h
                refine ⟨hh, n + calls lt, fun deep hd fs S ms m ho hst => ?_⟩
                obtain ⟨p1, m1, P, e1, e2, e3, e4⟩ := parsed m
                obtain ⟨m2, f1, f2, f3, f4⟩ := (leftChecksAt_spec e2 (show calls lt ≤ deep by omega)).1 lt' hlc
                obtain ⟨f, m3, k1, k2⟩ := hn deep (by omega) m.get fs S ms m2 p1 P ho hst f2 (by rw [f4, e4]) (by rw [f4, e3])
                refine ⟨f, m3, ?_, k2⟩
                simp only [Machine.addFunctionAt, hlk, Out.of_ok, Out.bind_ok, List.isEmpty_nil, if_true, ha1, e1, f1,
                  Machine.addFunctionOpAt, hd1, k1]
              · -- a function with parameters
                rw [if_neg hmore] at h ho1
                subst ho1
                obtain ⟨c2, hdel, hc2, hop2⟩ := hundo
                have hdel' : c1.deleteOp name .function = .ok (c2, true) := hdel
                rw [hdel'] at h
                obtain ⟨o, cs, cs', i, ps, rfl, rfl, -⟩ := leftChecks_spec hlc
                simp only [Out.of_ok, Out.bind_ok, Tree.numChildren] at h
                have hu3 : UserFn (Op.getFunction name (.fixed cs'.length)) := ⟨rfl, rfl, hw⟩
                obtain ⟨c3, ha3, hc3, hd3, hop3⟩ := hc2.addOp hu3 hlk2
                rw [ha3] at h
                simp only [Out.of_ok, Out.bind_ok, hd3, Tree.setRootOp] at h
                obtain ⟨hh, n, hn⟩ := addFunctionRightAt_spec K M hF strtod hc3.like h
                refine ⟨hh, n + calls (.op o cs i), fun deep hd fs S ms m ho hst => ?_⟩
                obtain ⟨p1, m1, P, e1, e2, e3, e4⟩ := parsed m
                obtain ⟨m2, f1, f2, f3, f4⟩ := (leftChecksAt_spec e2 (show calls (.op o cs i) ≤ deep by omega)).1 _ hlc
                obtain ⟨m3, j1, j2, j3⟩ := setOpAt_spec (o' := { Op.getFunction name (.fixed cs'.length) with id := 58 + (D.map (·.op)).length }) f2
                have hv0 : m2.vars 0 = some p1 := by rw [f4, e4]
                obtain ⟨f, m4, k1, k2⟩ := hn deep (by omega) m.get fs S ms m3 p1 P ho hst j2 (by rw [j3, hv0]) (by rw [j3, f4, e3])
                refine ⟨f, m4, ?_, k2⟩
                obtain ⟨qs, T, x1, x2, x3⟩ := f2.holds
                have hlen : (qs.map some).length = cs'.length := by simpa using x2.length
                rw [Bool.not_eq_true] at hmore
                simp only [Machine.addFunctionAt, hlk, Out.of_ok, Out.bind_ok, hmore, if_false, Bool.false_eq_true, ha1, e1, f1,
                  if_true, Machine.addFunctionOpAt, hdel', hv0, Mem.load, x1, hlen, ha3, hd3, j1, k1]

/-! ## Clearing -/

theorem rules_op {rs : List (RewriteRule V)} {D : List (FunDef V)} (h : List.Forall₂ IsDef rs D) :
    ∀ r ∈ rs, ∃ o cs i, r.pattern.tree = .op o cs i := by
  induction h with
  | nil => simp
  | cons h1 _ ih =>
    intro r hr
    rcases List.mem_cons.mp hr with rfl | hr
    · obtain ⟨-, -, -, ps, tok, h4, -⟩ := h1.shape
      exact ⟨_, _, _, by rw [h4]⟩
    · exact ih r hr

theorem headOpAt_spec {m : Mem V} {f : MemFun} {o : Op} {cs : List (Tree V)} {i : Nat} {P : List Nat}
    (h : OwnershipSpec.Holds m.get (.op o cs i) f.left P) : headOpAt m f = .ok o := by
  obtain ⟨ps, T, h1, _⟩ := h
  simp [headOpAt, Mem.load, h1]

theorem removeFunAt_spec {c c' : Ctx} {r : RewriteRule V} {f : MemFun} {m : Mem V} {P R : List Nat} {deep : Nat}
    (hl : OwnershipSpec.Holds m.get r.pattern.tree f.left P) (hr : OwnershipSpec.Holds m.get r.after f.after R)
    (hn : (P ++ R).Nodup) (hd : calls r.pattern.tree + calls r.after ≤ deep) (hc : removeNodeOp c r = .ok c') :
    ∃ m', removeFunAt deep c f m = .ok (c', m') ∧ m'.get = rest m.get (P ++ R) := by
  have pair : Pair (rest m.get (P ++ R)) r.pattern.tree r.after m f.left f.after P R :=
    ⟨hl, hr, hn, fun z hz => by simp only [rest, hz, if_true], fun z hz => by simp only [rest, hz, if_false]⟩
  obtain ⟨m1, m2, e1, e2, e3, _⟩ := pair.freed (deep := deep) (by omega) (by omega)
  refine ⟨m2, ?_, e3⟩
  cases ht : r.pattern.tree with
  | const v i => simp [removeNodeOp, ht, Tree.rootOp] at hc
  | var n k i => simp [removeNodeOp, ht, Tree.rootOp] at hc
  | op o cs i =>
    rw [ht] at hl
    simp only [removeNodeOp, ht, Tree.rootOp] at hc
    obtain ⟨d, h1, h2⟩ := Res.bind_eq_ok.1 hc
    cases h2
    simp [removeFunAt, headOpAt_spec hl, h1, e1, e2]

theorem clearFunsAt_spec {base : Nat → Option (Cell V)} {deep : Nat} : ∀ {rs : List (RewriteRule V)} {fs : List MemFun}
    {c c' : Ctx} {m : Mem V} {S : List Nat}, Keeps base rs fs m.get S → clearFunctions c rs = .ok c' → depth rs ≤ deep →
    ∃ m', clearFunsAt deep c fs m = .ok (c', m') ∧ m'.get = base
  | [], fs, c, c', m, S, h, hc, _ => by
    obtain ⟨rfl, rfl⟩ := h.owned
    cases hc
    exact ⟨m, rfl, funext fun a => h.old a (by simp)⟩
  | r :: rs, fs, c, c', m, S, h, hc, hd => by
    obtain ⟨f, fs', P, R, S', rfl, h2, h3, h4, h5, h6⟩ := h.owned
    simp only [clearFunctions] at hc
    obtain ⟨c1, hc1, hc2⟩ := Res.bind_eq_ok.1 hc
    simp only [depth] at hd
    have hn := h.nodup
    rw [h2, ← List.append_assoc, List.nodup_append] at hn
    obtain ⟨m1, e1, e2⟩ := removeFunAt_spec h4 h5 hn.1 (show _ ≤ deep by omega) hc1
    have hk : Keeps base rs fs' m1.get S' := by
      refine ⟨owned_congr h6 fun a ha => ?_, hn.2.1, fun a ha => h.new a (by simp [h2, ha]), fun a ha => ?_⟩
      · rw [e2, rest, if_neg fun hp => hn.2.2 a hp a ha rfl]
      · rw [e2, rest]
        by_cases hp : a ∈ P ++ R
        · rw [if_pos hp, h.new a (by rw [h2, ← List.append_assoc]; exact List.mem_append_left _ hp)]
        · rw [if_neg hp, h.old a]
          rw [h2, ← List.append_assoc]
          simp only [List.mem_append] at hp ⊢
          exact fun hh => hh.elim hp ha
    obtain ⟨m2, f1, f2⟩ := clearFunsAt_spec hk hc2 (show depth rs ≤ deep by omega)
    exact ⟨m2, by simp [clearFunsAt, e1, f1], f2⟩

theorem takeFunAt_spec {m : Mem V} (o : Op) : ∀ {rs : List (RewriteRule V)} {fs : List MemFun} {S : List Nat},
    (∀ r ∈ rs, ∃ o cs i, r.pattern.tree = .op o cs i) → Owned m.get rs fs S →
    (takeRule o rs = none → takeFunAt o m fs = .ok none) ∧
    ∀ r rest, takeRule o rs = some (r, rest) → ∃ f fs' P R S', takeFunAt o m fs = .ok (some (f, fs')) ∧
      OwnershipSpec.Holds m.get r.pattern.tree f.left P ∧ OwnershipSpec.Holds m.get r.after f.after R ∧
      Owned m.get rest fs' S' ∧ S.Perm (P ++ R ++ S') ∧ calls r.pattern.tree + calls r.after ≤ depth rs
  | [], fs, S, _, ⟨h, _⟩ => by
    subst h
    exact ⟨fun _ => rfl, fun r rest e => by cases e⟩
  | q :: rs, fs, S, hop, ⟨f, fs', P, R, S', h1, h2, h3, h4, h5, h6⟩ => by
    subst h1 h2
    obtain ⟨p, cs, i, hq⟩ := hop q (by simp)
    have hh : headOpAt m f = .ok p := headOpAt_spec (by rw [← hq]; exact h4)
    obtain ⟨i1, i2⟩ := takeFunAt_spec o (fun r hr => hop r (by simp [hr])) h6
    by_cases hpo : p = o
    · refine ⟨fun e => ?_, fun r rest e => ?_⟩
      · simp [takeRule, hq, Tree.rootOp, hpo] at e
      · simp only [takeRule, hq, Tree.rootOp, hpo, if_true, Option.some.injEq, Prod.mk.injEq] at e
        obtain ⟨rfl, rfl⟩ := e
        refine ⟨f, fs', P, R, S', by simp [takeFunAt, hh, hpo], h4, h5, h6, by simp, ?_⟩
        simp only [depth]; omega
    · have hpo' : ¬ some p = some o := fun e => hpo (by cases e; rfl)
      refine ⟨fun e => ?_, fun r rest e => ?_⟩
      · cases ht : takeRule o rs with
        | none => simp [takeFunAt, hh, hpo, i1 ht]
        | some x => simp [takeRule, hq, Tree.rootOp, hpo', ht] at e
      · cases ht : takeRule o rs with
        | none => simp only [takeRule, hq, Tree.rootOp, hpo', if_false, ht] at e; cases e
        | some x =>
          obtain ⟨r', rest'⟩ := x
          simp only [takeRule, hq, Tree.rootOp, hpo', if_false, ht, Option.some.injEq, Prod.mk.injEq] at e
          obtain ⟨rfl, rfl⟩ := e
          obtain ⟨g, gs, P', R', T, e1, e2, e3, e4, e5, e6⟩ := i2 _ _ ht
          refine ⟨g, f :: gs, P', R', P ++ (R ++ T), by simp [takeFunAt, hh, hpo, e1], e2, e3,
            ⟨f, gs, P, R, T, rfl, rfl, h3, h4, h5, e4⟩, ?_, ?_⟩
          · have hp : ((P ++ R) ++ ((P' ++ R') ++ T)).Perm ((P' ++ R') ++ ((P ++ R) ++ T)) := by
              have := List.Perm.append_right T (List.perm_append_comm (l₁ := P ++ R) (l₂ := P' ++ R'))
              simpa [List.append_assoc] using this
            have h1 := (e5.append_left (P ++ R)).trans hp
            simpa [List.append_assoc] using h1
          · simp only [depth]; omega

theorem clearAt_spec {s s' : Session V Unit} {D : List (FunDef V)} (hs : Sess s D) {input : Str} {b : Bool}
    (h : clearExec s input = .ok (s', b)) : s'.hist = s.hist ∧
    ∀ deep ≥ depth s.funs, ∀ base fs S m, Keeps base s.funs fs m.get S →
      ∃ fs' m' S', clearAt deep s.ctx fs input m = .ok (s'.ctx, fs', m') ∧ Keeps base s'.funs fs' m'.get S' := by
  unfold clearExec at h
  by_cases hi : input = clearCommand
  · rw [if_pos hi] at h
    obtain ⟨c, hc, h⟩ := Res.bind_eq_ok.1 h
    cases h
    refine ⟨rfl, fun deep hd base fs S m hk => ?_⟩
    obtain ⟨m', e1, e2⟩ := clearFunsAt_spec hk hc hd
    exact ⟨[], m', [], by simp [clearAt, hi, e1], ⟨rfl, rfl⟩, List.nodup_nil, by simp, fun a _ => by rw [e2]⟩
  · rw [if_neg hi] at h
    obtain ⟨lk, hlk, h⟩ := Res.bind_eq_ok.1 h
    cases lk with
    | none =>
      cases h
      exact ⟨rfl, fun deep hd base fs S m hk => ⟨fs, m, S, by simp [clearAt, hi, hlk], hk⟩⟩
    | some x =>
      obtain ⟨a, o⟩ := x
      simp only at h
      cases ht : takeRule o s.funs with
      | none =>
        rw [ht] at h
        cases h
        refine ⟨rfl, fun deep hd base fs S m hk => ⟨fs, m, S, ?_, hk⟩⟩
        simp [clearAt, hi, hlk, (takeFunAt_spec o (rules_op hs.rules) hk.owned).1 ht]
      | some x =>
        obtain ⟨r, rem⟩ := x
        rw [ht] at h
        obtain ⟨c, hc, h⟩ := Res.bind_eq_ok.1 h
        cases h
        refine ⟨rfl, fun deep hd base fs S m hk => ?_⟩
        obtain ⟨f, fs', P, R, S', e1, e2, e3, e4, e5, e6⟩ := (takeFunAt_spec o (rules_op hs.rules) hk.owned).2 _ _ ht
        have hn := e5.nodup_iff.mp hk.nodup
        rw [List.nodup_append] at hn
        obtain ⟨m', f1, f2⟩ := removeFunAt_spec e2 e3 hn.1 (show _ ≤ deep by omega) hc
        refine ⟨fs', m', S', by simp [clearAt, hi, hlk, e1, f1], owned_congr e4 fun a ha => ?_, hn.2.1,
          fun a ha => hk.new a (e5.mem_iff.mpr (by simp [ha])), fun a ha => ?_⟩
        · rw [f2, rest, if_neg fun hp => hn.2.2 a hp a ha rfl]
        · rw [f2, rest]
          by_cases hp : a ∈ P ++ R
          · rw [if_pos hp, hk.new a (e5.mem_iff.mpr (List.mem_append_left _ hp))]
          · rw [if_neg hp, hk.old a]
            rw [e5.mem_iff]
            simp only [List.mem_append] at hp ⊢
            exact fun hh => hh.elim hp ha

/-! ## Evaluations -/

theorem evaluationAt_spec (K : Machine V ε) (M : Malloc V) {F : Finder V} (hF : Finds K.dbl.eq F)
    (strtod : Str → Option V) {simp : Simp V} {s s' : Session V Unit} (hc : ArithLike s.ctx)
    {input : Str} {r : Option (Tree V)} (h : evaluationExec (valueClient K simp strtod) s input = .ok (s', r)) :
    s'.ctx = s.ctx ∧ s'.funs = s.funs ∧
    ∃ n v, s'.hist = (match (v : Option (Option V)) with
        | some (some v) => historyAdd s.hist v
        | _ => s.hist) ∧
      ∀ deep ≥ n, ∀ fs S ms m, Owned m.get s.funs fs S → StoredSimp m.get simp ms →
      ∃ m', rulesAt deep m fs = .ok (memRules s.funs fs) ∧
        K.evaluationAt M F deep 3 s.ctx.env strtod (memRules s.funs fs) ms 1 (tokenize s.ctx.keywords input) m = .ok (v, m') ∧
        m'.get = m.get := by
  obtain ⟨g1, g2, g3⟩ := evaluationExec_spec h
  refine ⟨g1, g2, ?_⟩
  unfold evaluationExec at h
  obtain ⟨⟨s1, x⟩, hp, h⟩ := Out.bind_eq_ok.1 h
  unfold arithParse at hp
  obtain ⟨t, ht, hp⟩ := Out.bind_eq_ok.1 hp
  rw [Out.of_eq_ok] at ht
  simp only [valueClient] at ht
  cases t with
  | none =>
    cases hp
    cases h
    obtain ⟨e, k, hq⟩ := parseEasy_none ht
    refine ⟨depth s.funs, none, rfl, fun deep hd fs S ms m ho hst => ?_⟩
    obtain ⟨m', e1, e2, _⟩ := C101_unreadable K M F 1 3 s.ctx hc strtod (memRules s.funs fs) ms m input hq deep
    exact ⟨m', rulesAt_spec ho hd, e1, e2⟩
  | some t =>
    obtain ⟨⟨w, y⟩, hsim, hp⟩ := Out.bind_eq_ok.1 hp
    obtain ⟨t', k, q, ha, hr, hq⟩ := arithSimplify_value hsim
    cases hp
    obtain ⟨n, hn⟩ := evaluation_live K M hF (y := 1) (x := 3) (by decide) s.ctx hc strtod input (parseEasy_some ht) ha hr
    refine ⟨n + depth s.funs, outcome q, ?_, fun deep hd fs S ms m ho hst => ?_⟩
    · rw [g3]
      rcases hq with ⟨e, rfl, rfl⟩ | ⟨u, rfl, rfl⟩
      · cases h; rfl
      · cases u <;> cases h <;> rfl
    · obtain ⟨m', e1, e2, _⟩ := hn deep (by omega) m _ ms (owned_stored ho) hst
      exact ⟨m', rulesAt_spec ho (by omega), e1, e2⟩

/-! ## Inputs -/

theorem keeps_storedSimp {base g : Nat → Option (Cell V)} {rs : List (RewriteRule V)} {fs : List MemFun} {S : List Nat}
    {simp : Simp V} {ms : MemSimp V} (h : Keeps base rs fs g S) (hs : StoredSimp base simp ms) : StoredSimp g simp ms :=
  storedSimp_congr hs fun a ha => h.old a fun hS => ha (h.new a hS)

theorem keeps_snoc {base : Nat → Option (Cell V)} {rs : List (RewriteRule V)} {fs : List MemFun} {S : List Nat}
    {m m' : Mem V} (h : Keeps base rs fs m.get S) {rule : RewriteRule V} {p q : Nat} {P R : List Nat}
    (hp : Pair m.get rule.pattern.tree rule.after m' p q P R) (hc : rule.pattern.constraints = fun _ => []) :
    Keeps base (rs ++ [rule]) (fs ++ [⟨p, q⟩]) m'.get (S ++ (P ++ R)) := by
  have hdis : ∀ a ∈ S, a ∉ P ++ R := fun a ha hpr => owned_live h.owned a ha (hp.new a hpr)
  refine ⟨owned_snoc hc hp.left hp.right (owned_congr h.owned fun a ha => hp.old a (hdis a ha)), ?_, ?_, ?_⟩
  · rw [List.nodup_append]
    exact ⟨h.nodup, hp.nodup, fun a ha b hb e => hdis a ha (e ▸ hb)⟩
  · intro a ha
    rcases List.mem_append.mp ha with ha | ha
    · exact h.new a ha
    · by_cases hS : a ∈ S
      · exact h.new a hS
      · rw [← h.old a hS]; exact hp.new a ha
  · intro a ha
    rw [List.mem_append] at ha
    rw [hp.old a fun h => ha (.inr h), h.old a fun h => ha (.inl h)]

theorem inputAt_spec (K : Machine V ε) (M : Malloc V) {F : Finder V} (hF : Finds K.dbl.eq F)
    (strtod : Str → Option V) {simp : Simp V} {s s' : Session V Unit} {D : List (FunDef V)} (hs : Sess s D)
    {i : MemInput} (h : inputOn K simp strtod s i = .ok s') :
    (∃ D', Sess s' D') ∧ ∃ n, ∀ deep ≥ n, ∀ base ms sm S, StoredSimp base simp ms → InMemory base s sm S →
      ∃ sm' S', K.inputAt M F deep strtod ms sm i = .ok sm' ∧ InMemory base s' sm' S' := by
  cases i with
  | evaluation input =>
    obtain ⟨⟨s1, r⟩, h1, h2⟩ := Out.bind_eq_ok.1 h
    cases h2
    obtain ⟨g1, g2, n, v, g3, g4⟩ := evaluationAt_spec K M hF strtod hs.ctx.like h1
    refine ⟨⟨D, by rw [g1]; exact hs.ctx, by rw [g2]; exact hs.rules, hs.arity, hs.ids⟩, n, fun deep hd base ms sm S hst hm => ?_⟩
    obtain ⟨m', e1, e2, e3⟩ := g4 deep hd sm.funs S ms sm.mem hm.keeps.owned (keeps_storedSimp hm.keeps hst)
    refine ⟨⟨s.ctx, sm.funs, s1.hist, m'⟩, S, ?_, g1.symm, rfl, ?_⟩
    · simp only [Machine.inputAt, hm.ctx, e1, e2, Out.bind_ok, Out.pure_eq, hm.hist, g3]
      rcases v with _ | _ | v <;> rfl
    · simp only [g2, e3]; exact hm.keeps
  | definition input =>
    obtain ⟨⟨s1, b⟩, h1, h2⟩ := Out.bind_eq_ok.1 h
    cases h2
    obtain ⟨g1, n, g2⟩ := definitionAt_spec K M hF strtod hs h1
    refine ⟨?_, n, fun deep hd base ms sm S hst hm => ?_⟩
    · rcases definitionExec_spec hs h1 with ⟨-, hu⟩ | ⟨-, d, -, hd, -⟩
      · exact ⟨D, hu.sess hs⟩
      · exact ⟨_, hd⟩
    · obtain ⟨f, m', e1, e2⟩ := g2 deep hd sm.funs S ms sm.mem hm.keeps.owned (keeps_storedSimp hm.keeps hst)
      rcases e2 with ⟨-, rfl, k1, k2⟩ | ⟨-, rule, p, q, P, R, k1, rfl, k3, k4⟩
      · refine ⟨⟨s1.ctx, sm.funs, s.hist, m'⟩, S, ?_, rfl, g1.symm, ?_⟩
        · simp only [Machine.inputAt, hm.ctx, hm.hist, e1, Out.bind_ok, Out.pure_eq, Option.toList_none, List.append_nil]
        · simp only [k1, k2]; exact hm.keeps
      · refine ⟨⟨s1.ctx, sm.funs ++ [⟨p, q⟩], s.hist, m'⟩, S ++ (P ++ R), ?_, rfl, g1.symm, ?_⟩
        · simp only [Machine.inputAt, hm.ctx, hm.hist, e1, Out.bind_ok, Out.pure_eq, Option.toList_some]
        · simp only [k1]; exact keeps_snoc hm.keeps k3 k4
  | clear input =>
    obtain ⟨⟨s1, b⟩, h1, h2⟩ := Out.bind_eq_ok.1 h
    cases h2
    rw [Out.of_eq_ok] at h1
    obtain ⟨g1, g2⟩ := clearAt_spec hs h1
    refine ⟨?_, depth s.funs, fun deep hd base ms sm S hst hm => ?_⟩
    · by_cases hi : input = clearCommand
      · subst hi
        obtain ⟨c, k1, k2⟩ := clearExec_all hs
        rw [h1] at k1
        cases k1
        exact ⟨[], k2, .nil, by simp, by simp⟩
      · rcases clearExec_one hs hi with ⟨k1, -⟩ | ⟨s2, d, k1, -, -, -, -, k2⟩
        · rw [h1] at k1
          cases k1
          exact ⟨D, hs⟩
        · rw [h1] at k1
          cases k1
          exact ⟨_, k2⟩
    · obtain ⟨fs', m', S', e1, e2⟩ := g2 deep hd base sm.funs S sm.mem hm.keeps
      refine ⟨⟨s1.ctx, fs', s.hist, m'⟩, S', ?_, rfl, g1.symm, e2⟩
      simp only [Machine.inputAt, hm.ctx, hm.hist, e1, Out.bind_ok, Out.pure_eq]

theorem sessionAt_spec (M : Malloc V) {F : Finder V} (strtod : Str → Option V) {simp : Simp V} :
    ∀ {xs : List (Machine V ε × MemInput)} {s s' : Session V Unit} {D : List (FunDef V)}, Sess s D →
    (∀ x ∈ xs, Finds x.1.dbl.eq F) → sessionOn simp strtod s xs = .ok s' →
    (∃ D', Sess s' D') ∧ ∃ n, ∀ deep ≥ n, ∀ base ms sm S, StoredSimp base simp ms → InMemory base s sm S →
      ∃ sm' S', sessionAt M F deep strtod ms sm xs = .ok sm' ∧ InMemory base s' sm' S'
  | [], s, s', D, hs, _, h => by
    cases h
    exact ⟨⟨D, hs⟩, 0, fun deep _ base ms sm S _ hm => ⟨sm, S, rfl, hm⟩⟩
  | (K, i) :: xs, s, s', D, hs, hF, h => by
    simp only [sessionOn] at h
    obtain ⟨s1, h1, h2⟩ := Out.bind_eq_ok.1 h
    obtain ⟨⟨D1, hs1⟩, n1, k1⟩ := inputAt_spec K M (hF (K, i) (by simp)) strtod hs h1
    obtain ⟨hs2, n2, k2⟩ := sessionAt_spec M strtod hs1 (fun x hx => hF x (by simp [hx])) h2
    refine ⟨hs2, n1 + n2, fun deep hd base ms sm S hst hm => ?_⟩
    obtain ⟨sm1, S1, e1, e2⟩ := k1 deep (by omega) base ms sm S hst hm
    obtain ⟨sm2, S2, e3, e4⟩ := k2 deep (by omega) base ms sm1 S1 hst e2
    exact ⟨sm2, S2, by simp [sessionAt, e1, e3], e4⟩

end Verif
