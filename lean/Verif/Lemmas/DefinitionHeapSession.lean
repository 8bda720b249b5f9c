import Verif.Lemmas.DefinitionHeap
import Verif.Lemmas.Session
import Verif.Props.EvaluationMemory

/-!
# Lemmas on the functions of a session in memory
-/

namespace Verif
open MemorySpec EvaluationMemoryProps
variable {V ε : Type}

/-! ## The rules of the functions -/

/-- The rules as `arith_simplify` reads them. -/
def memRules (rs : List (RewriteRule V)) (fs : List MemFun) : List (MemRule V) :=
  List.zipWith (fun r f => ⟨r.pattern, f.after⟩) rs fs

/-- More calls than any of the trees takes. -/
def depth : List (RewriteRule V) → Nat
  | [] => 0
  | r :: rs => calls r.pattern.tree + calls r.after + depth rs

theorem owned_congr {g h : Nat → Option (Cell V)} : ∀ {rs : List (RewriteRule V)} {fs : List MemFun}
    {S : List Nat}, Owned g rs fs S → (∀ a ∈ S, h a = g a) → Owned h rs fs S
  | [], fs, S, o, _ => o
  | r :: rs, fs, S, ⟨f, fs', P, R, S', h1, h2, h3, h4, h5, h6⟩, he => by
    subst h2
    exact ⟨f, fs', P, R, S', h1, rfl, h3, h4.congr fun a ha => he a (by simp [ha]),
      h5.congr fun a ha => he a (by simp [ha]), owned_congr h6 fun a ha => he a (by simp [ha])⟩

theorem owned_live {g : Nat → Option (Cell V)} : ∀ {rs : List (RewriteRule V)} {fs : List MemFun}
    {S : List Nat}, Owned g rs fs S → ∀ a ∈ S, g a ≠ none
  | [], fs, S, ⟨_, h⟩ => by subst h; simp
  | r :: rs, fs, S, ⟨f, fs', P, R, S', h1, h2, h3, h4, h5, h6⟩ => by
    subst h2
    intro a ha
    rcases List.mem_append.mp ha with ha | ha
    · exact h4.live a ha
    · rcases List.mem_append.mp ha with ha | ha
      · exact h5.live a ha
      · exact owned_live h6 a ha

theorem owned_snoc {g : Nat → Option (Cell V)} {rule : RewriteRule V} {a b : Nat} {P R : List Nat}
    (hc : rule.pattern.constraints = fun _ => []) (h4 : OwnershipSpec.Holds g rule.pattern.tree a P)
    (h5 : OwnershipSpec.Holds g rule.after b R) : ∀ {rs : List (RewriteRule V)} {fs : List MemFun} {S : List Nat},
    Owned g rs fs S → Owned g (rs ++ [rule]) (fs ++ [⟨a, b⟩]) (S ++ (P ++ R))
  | [], fs, S, ⟨h1, h2⟩ => by
    subst h1 h2
    exact ⟨⟨a, b⟩, [], P, R, [], rfl, by simp, hc, h4, h5, rfl, rfl⟩
  | r :: rs, fs, S, ⟨f, fs', P', R', S', h1, h2, h3, h6, h7, h8⟩ => by
    subst h1 h2
    exact ⟨f, fs' ++ [⟨a, b⟩], P', R', S' ++ (P ++ R), rfl, by simp, h3, h6, h7, owned_snoc hc h4 h5 h8⟩

theorem owned_stored {g : Nat → Option (Cell V)} : ∀ {rs : List (RewriteRule V)} {fs : List MemFun}
    {S : List Nat}, Owned g rs fs S → Stored g rs (memRules rs fs)
  | [], fs, S, _ => by simp [memRules, Stored]
  | r :: rs, fs, S, ⟨f, fs', P, R, S', h1, h2, h3, h4, h5, h6⟩ => by
    subst h1
    exact ⟨f.after, memRules rs fs', R, by simp [memRules], h5, owned_stored h6⟩

theorem rulesAt_spec {m : Mem V} {deep : Nat} : ∀ {rs : List (RewriteRule V)} {fs : List MemFun}
    {S : List Nat}, Owned m.get rs fs S → depth rs ≤ deep → rulesAt deep m fs = .ok (memRules rs fs)
  | [], fs, S, ⟨h, _⟩, _ => by subst h; rfl
  | r :: rs, fs, S, ⟨f, fs', P, R, S', h1, h2, h3, h4, h5, h6⟩, hd => by
    subst h1
    simp only [depth] at hd
    have e : r.pattern = ⟨r.pattern.tree, fun _ => []⟩ := by rw [← h3]
    simp only [rulesAt, readTree_spec h4 (show calls r.pattern.tree ≤ deep by omega),
      rulesAt_spec h6 (show depth rs ≤ deep by omega), Out.bind_ok, Out.pure_eq]
    rw [← e]
    simp [memRules]

theorem storedSimp_congr {g h : Nat → Option (Cell V)} {s : Simp V} {ms : MemSimp V} (hs : StoredSimp g s ms)
    (he : ∀ a, g a ≠ none → h a = g a) : StoredSimp h s ms := by
  have st : ∀ {rs : List (RewriteRule V)} {l : List (MemRule V)}, Stored g rs l → Stored h rs l := by
    intro rs
    induction rs with
    | nil => exact fun h => h
    | cons r rs ih =>
      rintro l ⟨a, l', R, h1, h2, h3⟩
      exact ⟨a, l', R, h1, h2.congr fun a ha => he a (h2.live a ha), ih h3⟩
  refine ⟨hs.initialized, fun k => st (hs.rulesets k), hs.before, hs.malformed, ?_⟩
  rcases hs.after with h1 | ⟨t, a, R, h1, h2, h3⟩
  · exact .inl h1
  · exact .inr ⟨t, a, R, h1, h2, h3.congr fun a ha => he a (h3.live a ha)⟩

/-! ## The left side -/

/-- The tree `t` at `p` in the memory `gl`, which otherwise is `g`. -/
structure LeftAt (g : Nat → Option (Cell V)) (t : Tree V) (p : Nat) (gl : Nat → Option (Cell V))
    (P : List Nat) : Prop where
  holds : OwnershipSpec.Holds gl t p P
  nodup : P.Nodup
  new : ∀ a ∈ P, g a = none
  old : ∀ a, a ∉ P → gl a = g a

theorem LeftAt.keep {g gl : Nat → Option (Cell V)} {t : Tree V} {p : Nat} {P : List Nat}
    (h : LeftAt g t p gl P) (a : Nat) (ha : g a ≠ none) : gl a = g a :=
  h.old a fun hp => ha (h.new a hp)

theorem leftVarsAt_spec : ∀ {ts : List (Tree V)} {m : Mem V} {ps S : List Nat},
    OwnershipSpec.HoldsAll m.get ts ps S → leftVarsAt m (ps.map some) = .ok (ts.all Tree.isVariable)
  | [], m, ps, S, ⟨h, _⟩ => by subst h; rfl
  | .const v i :: ts, m, ps, S, ⟨p, qs, S1, S2, h1, _, h3, h4⟩ => by
    subst h1
    simp [leftVarsAt, Mem.load, h3.1, Tree.isVariable]
  | .var n k i :: ts, m, ps, S, ⟨p, qs, S1, S2, h1, _, h3, h4⟩ => by
    subst h1
    simp [leftVarsAt, Mem.load, h3.1, Tree.isVariable, leftVarsAt_spec h4]
  | .op o cs i :: ts, m, ps, S, ⟨p, qs, S1, S2, h1, _, h3, h4⟩ => by
    subst h1
    obtain ⟨_, _, h5, _⟩ := h3
    simp [leftVarsAt, Mem.load, h5, Tree.isVariable]

theorem leftChecksAt_spec {g : Nat → Option (Cell V)} {t : Tree V} {m : Mem V} {p : Nat} {P : List Nat}
    (h : LeftAt g t p m.get P) {deep : Nat} (hd : calls t ≤ deep) :
    (∀ t', leftChecks t = some t' → ∃ m', leftChecksAt deep m (some p) = .ok (true, m') ∧
      LeftAt g t' p m'.get P ∧ calls t' = calls t ∧ m'.vars = m.vars) ∧
    (leftChecks t = none → ∃ m' t', leftChecksAt deep m (some p) = .ok (false, m') ∧
      LeftAt g t' p m'.get P ∧ calls t' = calls t ∧ m'.vars = m.vars) := by
  cases t with
  | const v i =>
    refine ⟨fun t' e => (by simp [leftChecks] at e), fun _ => ⟨m, _, ?_, h, rfl, rfl⟩⟩
    simp [leftChecksAt, Mem.load, h.holds.1]
  | var n k i =>
    refine ⟨fun t' e => (by simp [leftChecks] at e), fun _ => ⟨m, _, ?_, h, rfl, rfl⟩⟩
    simp [leftChecksAt, Mem.load, h.holds.1]
  | op o cs i =>
    obtain ⟨ps, T, h1, h2, h3⟩ := id h.holds
    have hlen := h2.length
    by_cases hp : o.placement = .function
    · by_cases he : cs = []
      · have hps : ps = [] := by subst he; simpa using hlen
        refine ⟨fun t' e => ?_, fun e => ?_⟩
        · simp only [leftChecks, hp, he, List.isEmpty_nil, if_true, ne_eq, not_true_eq_false, if_false,
            Option.some.injEq] at e
          subst e
          refine ⟨m, ?_, ?_, by rw [he], rfl⟩
          · simp [leftChecksAt, Mem.load, h1, hp, hps]
          · rw [← he]; exact h
        · simp [leftChecks, hp, he] at e
      · have hps : (ps.map some).isEmpty = false := by
          cases ps with
          | nil => exact absurd (by simpa using hlen.symm) he
          | cons => rfl
        have hcs : cs.isEmpty = false := by simpa using he
        have hv := leftVarsAt_spec h2
        cases hall : cs.all Tree.isVariable with
        | false =>
          refine ⟨fun t' e => (by simp [leftChecks, hp, hcs, hall] at e), fun _ => ⟨m, _, ?_, h, rfl, rfl⟩⟩
          simp only [leftChecksAt, Mem.load, h1, hp, hps, hv, hall, Out.bind_ok, ne_eq, not_true_eq_false,
            if_false, Bool.false_eq_true, Out.pure_eq]
        | true =>
          obtain ⟨m', e1, e2, e3, e4⟩ := listVarsAt_spec maxMappedVars (vs := []) (ok := true) h.holds h.nodup hd
          rw [listVarsRec_tree] at e2
          have hL : LeftAt g (listVariables maxMappedVars (.op o cs i)).tree p m'.get P :=
            ⟨e2, h.nodup, h.new, fun a ha => (e3 a ha).trans (h.old a ha)⟩
          have hcalls := calls_listVariables maxMappedVars (Tree.op o cs i)
          have hlen' : (ps.map some).length = cs.length := by simpa using hlen
          have hs := listVarsRec_ok maxMappedVars (Tree.op o cs i)
          have hvs := listVarsRec_vars maxMappedVars (Tree.op o cs i)
          have hcount : (listVariables maxMappedVars (.op o cs i)).sufficient = true →
              (listVariables maxMappedVars (.op o cs i)).count = (listVariables maxMappedVars (.op o cs i)).vars.length := by
            unfold listVariables
            rcases listVarsRec maxMappedVars (.op o cs i) [] true with ⟨t', vs, _ | _⟩ <;> simp
          by_cases hsuf : (listVariables maxMappedVars (.op o cs i)).sufficient = true
          · have hc := hcount hsuf
            by_cases hn : (listVariables maxMappedVars (.op o cs i)).vars.length = cs.length
            · refine ⟨fun t' e => ?_, fun e => ?_⟩
              · simp only [leftChecks, hp, hcs, hall, hsuf, hc, hn, ne_eq, not_true_eq_false, if_false, if_true,
                  Bool.false_eq_true, Bool.not_true, Option.some.injEq] at e
                subst e
                refine ⟨m', ?_, hL, hcalls, e4.vars⟩
                simp only [leftChecksAt, Mem.load, h1, hp, hps, hv, hall, e1, hs, hvs, hsuf, hn, hlen', Out.bind_ok, ne_eq,
                  not_true_eq_false, if_false, if_true, Bool.false_eq_true, Bool.not_true, Out.pure_eq]
              · simp [leftChecks, hp, hcs, hall, hsuf, hc, hn] at e
            · refine ⟨fun t' e => (by simp [leftChecks, hp, hcs, hall, hsuf, hc, hn] at e), fun _ => ⟨m', _, ?_, hL, hcalls, e4.vars⟩⟩
              simp only [leftChecksAt, Mem.load, h1, hp, hps, hv, hall, e1, hs, hvs, hsuf, hn, hlen', Out.bind_ok, ne_eq,
                not_true_eq_false, not_false_eq_true, if_false, if_true, Bool.false_eq_true, Bool.not_true, Out.pure_eq]
          · refine ⟨fun t' e => (by simp [leftChecks, hp, hcs, hall, hsuf] at e), fun _ => ⟨m', _, ?_, hL, hcalls, e4.vars⟩⟩
            simp only [Bool.not_eq_true] at hsuf
            simp only [leftChecksAt, Mem.load, h1, hp, hps, hv, hall, e1, hs, hsuf, Out.bind_ok, ne_eq,
              not_true_eq_false, if_false, if_true, Bool.false_eq_true, Bool.not_false, Out.pure_eq]
    · refine ⟨fun t' e => (by simp [leftChecks, hp] at e), fun _ => ⟨m, _, ?_, h, rfl, rfl⟩⟩
      simp [leftChecksAt, Mem.load, h1, hp]

/-- `free_tree` of the left side. -/
theorem LeftAt.freed {g : Nat → Option (Cell V)} {t : Tree V} {m : Mem V} {p : Nat} {P : List Nat}
    (h : LeftAt g t p m.get P) {deep : Nat} (hd : calls t ≤ deep) :
    ∃ m', freeTree deep m (some p) = .ok m' ∧ m'.get = g ∧ m'.vars = m.vars := by
  obtain ⟨m', e1, e2, e3⟩ := freeTree_spec h.holds h.nodup hd
  refine ⟨m', e1, ?_, e3⟩
  funext a
  rw [e2 a]
  by_cases ha : a ∈ P
  · rw [if_pos ha, h.new a ha]
  · rw [if_neg ha, h.old a ha]

theorem freeTree_nothing {deep : Nat} (hd : 1 ≤ deep) (m : Mem V) : freeTree deep m none = .ok m := by
  cases deep with
  | zero => omega
  | succ n => simp [freeTree]

theorem calls_pos (t : Tree V) : 1 ≤ calls t := by
  cases t <;> simp only [calls] <;> omega

/-- The label `error` with a left side only. -/
theorem definitionFailAt_left {g : Nat → Option (Cell V)} {t : Tree V} {m : Mem V} {p : Nat} {P : List Nat}
    (h : LeftAt g t p m.get P) (h0 : m.vars 0 = some p) (h2 : m.vars 2 = none) {deep : Nat} (hd : calls t ≤ deep)
    {c : Ctx} {name : Str} {d : Ctx × Bool} (hc : c.deleteOp name .function = .ok d) :
    ∃ m', definitionFailAt deep c name m = .ok (d.1, none, m') ∧ m'.get = g := by
  obtain ⟨m', e1, e2, e3⟩ := h.freed hd
  refine ⟨m', ?_, e2⟩
  simp [definitionFailAt, hc, h0, e1, e3, h2, freeTree_nothing (le_trans (calls_pos t) hd)]

/-- The label `error` without any tree. -/
theorem definitionFailAt_none {m : Mem V} (h0 : m.vars 0 = none) (h2 : m.vars 2 = none) {deep : Nat}
    (hd : 1 ≤ deep) {c : Ctx} {name : Str} {d : Ctx × Bool} (hc : c.deleteOp name .function = .ok d) :
    definitionFailAt deep c name m = .ok (d.1, none, m) := by
  simp [definitionFailAt, hc, h0, h2, freeTree_nothing hd]

/-! ## The right side -/

/-- What a definition leads to: the memory is `g` again, or there is one rule more. -/
def Defined (g : Nat → Option (Cell V)) (s s' : Session V Unit) (b : Bool) (f : Option MemFun) (m' : Mem V) : Prop :=
  (b = false ∧ f = none ∧ m'.get = g ∧ s'.funs = s.funs) ∨
  (b = true ∧ ∃ rule p q P R, s'.funs = s.funs ++ [rule] ∧ f = some ⟨p, q⟩ ∧
    Pair g rule.pattern.tree rule.after m' p q P R ∧ rule.pattern.constraints = fun _ => [])

theorem fail_defined {s s' : Session V Unit} {c : Ctx} {w : Unit} {name : Str} {b : Bool}
    (h : definitionFail s c w name = .ok (s', b)) :
    ∃ d, c.deleteOp name .function = .ok d ∧ s'.ctx = d.1 ∧ s'.funs = s.funs ∧ s'.hist = s.hist ∧ b = false := by
  unfold definitionFail at h
  obtain ⟨d, hd, h⟩ := Out.bind_eq_ok.1 h
  rw [Out.of_eq_ok] at hd
  cases h
  exact ⟨d, hd, rfl, rfl, rfl, rfl⟩

theorem arithSimplify_value {K : Machine V ε} {simp : Simp V} {strtod : Str → Option V} {funs : List (RewriteRule V)}
    {hist : List V} {w w' : Unit} {t : Tree V} {r : Option (Tree V)}
    (h : arithSimplify (valueClient K simp strtod) funs hist w t = .ok (w', r)) :
    ∃ t' k q, applyRuleset K.dbl.eq (fun _ => true) funs sizeMax K.fuel t = .ok (some (t', k)) ∧
      K.simplify simp t' = .ok q ∧ ((∃ e, q = .error e ∧ r = none) ∨ ∃ u, q = .ok u ∧ r = some u) := by
  unfold arithSimplify at h
  obtain ⟨⟨t', k⟩, h1, h⟩ := Out.bind_eq_ok.1 h
  obtain ⟨⟨w1, q⟩, h2, h⟩ := Out.bind_eq_ok.1 h
  simp only [valueClient] at h1 h2
  obtain ⟨q', h3, h4⟩ := Out.bind_eq_ok.1 h2
  cases h4
  refine ⟨t', k, q, ofFuel_ok h1, h3, ?_⟩
  cases q with
  | error e => cases h; exact .inl ⟨e, rfl, rfl⟩
  | ok u => cases h; exact .inr ⟨u, rfl, rfl⟩

theorem addFunctionRightAt_spec (K : Machine V ε) (M : Malloc V) {F : Finder V} (hF : Finds K.dbl.eq F)
    (strtod : Str → Option V) {simp : Simp V} {s s' : Session V Unit} {c : Ctx} (hc : ArithLike c) {name right : Str}
    {lt : Tree V} {newOp : Op} {b : Bool}
    (h : addFunctionRight (valueClient K simp strtod) s c name right lt newOp = .ok (s', b)) :
    s'.hist = s.hist ∧
    ∃ n, ∀ deep ≥ n, ∀ g fs S ms m p P, Owned g s.funs fs S → StoredSimp g simp ms → LeftAt g lt p m.get P →
      m.vars 0 = some p → m.vars 2 = none →
      ∃ f m', K.addFunctionRightAt M F deep strtod fs ms c name right newOp m = .ok (s'.ctx, f, m') ∧
        Defined g s s' b f m' := by
  unfold addFunctionRight at h
  obtain ⟨pr, hpr, h⟩ := Out.bind_eq_ok.1 h
  rw [Out.of_eq_ok] at hpr
  simp only [valueClient] at hpr
  cases pr with
  | none =>
    obtain ⟨d, hd1, hd2, hd3, hd4, rfl⟩ := fail_defined h
    refine ⟨hd4, calls lt, fun deep hd g fs S ms m p P ho hs hL h0 h2 => ?_⟩
    obtain ⟨e, k, hp⟩ : ∃ e k, (parseInput c strtod right).2 = .err e k := by
      unfold parseEasy at hpr
      cases hq : (parseInput c strtod right).2 with
      | err e k => exact ⟨e, k, rfl⟩
      | ok t => rw [hq] at hpr; cases hpr
      | okUninit => rw [hq] at hpr; cases hpr
      | ub => rw [hq] at hpr; cases hpr
    obtain ⟨m1, e1, e2, e3⟩ := (ParserMemoryProps.C98_calculator M c hc strtod right m).2 e k hp
    obtain ⟨m2, f1, f2⟩ := definitionFailAt_left (m := m1) (by rw [e2]; exact hL) (by rw [e3, h0]) (by rw [e3, h2]) hd hd1
    refine ⟨none, m2, ?_, .inl ⟨rfl, rfl, f2, hd3⟩⟩
    simp [Machine.addFunctionRightAt, e1, f1, hd2]
  | some rt =>
    have hp : (parseInput c strtod right).2 = .ok rt := by
      unfold parseEasy at hpr
      cases hq : (parseInput c strtod right).2 with
      | ok t => rw [hq] at hpr; cases hpr; rfl
      | err e k => rw [hq] at hpr; cases hpr
      | okUninit => rw [hq] at hpr; cases hpr
      | ub => rw [hq] at hpr; cases hpr
    -- the parsed right side in memory
    have parsed : ∀ (m : Mem V), ∃ p1 m1 R,
        parseHeap M true c.env strtod (tokenize c.keywords right) m = .ok (.ok (some p1), m1) ∧
        Live m.get m.vars 1 3 rt (m1.setVar 1 (some p1)) R ∧ m1.vars = m.vars := by
      intro m
      obtain ⟨p1, m1, R, e1, e2, e3⟩ := (ParserMemoryProps.C98_calculator M c hc strtod right m).1 rt hp
      refine ⟨p1, m1, R, e1, ⟨⟨p1, by simp [Mem.deref, Mem.setVar], e2.holds, e2.nodup, fun a k h => (by cases h)⟩, ?_, ?_, ?_⟩, e3⟩
      · intro a ha
        rcases e2.fresh a ha with h | h
        · cases h
        · exact h
      · intro a ha
        exact e2.frame a (by simp) ha
      · intro z hz _
        simp [Mem.setVar, hz, e3]
    simp only at h
    by_cases hrec : (findOpNode newOp.id rt []).isSome = true
    · rw [if_pos hrec] at h
      obtain ⟨d, hd1, hd2, hd3, hd4, rfl⟩ := fail_defined h
      refine ⟨hd4, calls lt + calls rt, fun deep hd g fs S ms m p P ho hs hL h0 h2 => ?_⟩
      obtain ⟨p1, m1, R, e1, e2, e3⟩ := parsed m
      obtain ⟨pr, z1, z2, _⟩ := e2.at_
      obtain ⟨r2, y1, y2⟩ := findOpAt_spec newOp.id (n := deep) [] z1 z2 (by omega)
      rw [hrec] at y2
      obtain ⟨sl, rfl⟩ := Option.isSome_iff_exists.mp y2
      obtain ⟨m3, k1, k2, k3⟩ := e2.freed (fuel := deep) (by omega)
      obtain ⟨m4, f1, f2⟩ := definitionFailAt_left (m := m3) (by rw [k2]; exact hL)
        (by rw [k3 0 (by decide) (by decide), h0]) (by rw [k3 2 (by decide) (by decide), h2])
        (show calls lt ≤ deep by omega) hd1
      refine ⟨none, m4, ?_, .inl ⟨rfl, rfl, f2, hd3⟩⟩
      simp [Machine.addFunctionRightAt, e1, y1, k1, f1, hd2]
    · rw [if_neg hrec] at h
      obtain ⟨⟨w, r⟩, hsimp, h⟩ := Out.bind_eq_ok.1 h
      obtain ⟨t', k, q, ha, hr, hq⟩ := arithSimplify_value hsimp
      simp only at h
      rcases hq with ⟨e, rfl, rfl⟩ | ⟨body, rfl, rfl⟩
      · cases h
      simp only at h
      obtain ⟨n1, h1⟩ := arithSimplify_live K M hF (y := 1) (x := 3) (by decide) ha hr
      cases hsuf : (listVariables maxMappedVars lt).sufficient with
      | false => simp [getPattern, hsuf] at h
      | true =>
      simp only [getPattern, hsuf, addConstraints, if_true] at h
      -- up to `get_rule`
      have upto : ∀ deep ≥ n1 + calls lt + calls rt + calls body + depth s.funs, ∀ g fs S ms m p P,
          Owned g s.funs fs S → StoredSimp g simp ms → LeftAt g lt p m.get P →
          m.vars 0 = some p → m.vars 2 = none →
          ∃ p1 m1 m3 m4 R b, parseHeap M true c.env strtod (tokenize c.keywords right) m = .ok (.ok (some p1), m1) ∧
            findOpAt newOp.id deep (m1.setVar 1 (some p1)) (.var 1) = .ok none ∧
            rulesAt deep (m1.setVar 1 (some p1)) fs = .ok (memRules s.funs fs) ∧
            K.arithSimplifyAt M F deep 3 (memRules s.funs fs) ms (m1.setVar 1 (some p1)) 1 = .ok (none, m3) ∧
            getPatternAt deep (m3.setVar 2 (m3.vars 1)) (some p) = .ok (true, m4) ∧
            m3.vars 0 = some p ∧ m4.vars 0 = some p ∧ m4.vars 2 = some b ∧
            Pair g (listVariables maxMappedVars lt).tree body m4 p b P R := by
        intro deep hd g fs S ms m p P ho hs hL h0 h2
        obtain ⟨p1, m1, R, e1, e2, e3⟩ := parsed m
        obtain ⟨pr, z1, z2, _⟩ := e2.at_
        obtain ⟨r2, y1, y2⟩ := findOpAt_spec newOp.id (n := deep) [] z1 z2 (by omega)
        have hr2 : r2 = none := by
          rw [Bool.not_eq_true] at hrec
          rw [hrec] at y2
          cases r2 <;> simp at y2 ⊢
        have ho1 : Owned m.get s.funs fs S := owned_congr ho fun a ha => hL.keep a (owned_live ho a ha)
        have hs1 : StoredSimp m.get simp ms := storedSimp_congr hs hL.keep
        have ho2 : Owned (m1.setVar 1 (some p1)).get s.funs fs S := owned_congr ho1 fun a ha =>
          e2.old a fun hR => owned_live ho1 a ha (e2.new a hR)
        obtain ⟨m3, f1, f2, _⟩ := h1 deep (by omega) m.get m.vars _ ms (owned_stored ho1) hs1 _ R e2
        obtain ⟨T, hT⟩ := f2 body rfl
        obtain ⟨b, x1, x2, x3, _⟩ := hT.at_
        have hb : m3.vars 1 = some b := by simpa [Mem.deref] using x1
        have hp0 : m3.vars 0 = some p := by rw [hT.vars 0 (by decide) (by decide), h0]
        have hdis : ∀ a ∈ P, a ∉ T := fun a ha hT' => hL.holds.live a ha (hT.new a hT')
        have pair : Pair g lt body (m3.setVar 2 (m3.vars 1)) p b P T := by
          refine ⟨hL.holds.congr fun a ha => hT.old a (hdis a ha), x2, ?_, ?_, ?_⟩
          · rw [List.nodup_append]
            exact ⟨hL.nodup, x3, fun a ha b hb e => hdis a ha (e ▸ hb)⟩
          · intro z hz
            rcases List.mem_append.mp hz with hz | hz
            · exact hL.new z hz
            · by_cases hzP : z ∈ P
              · exact hL.new z hzP
              · rw [← hL.old z hzP]; exact hT.new z hz
          · intro z hz
            simp only [List.mem_append, not_or] at hz
            exact (hT.old z hz.2).trans (hL.old z hz.1)
        obtain ⟨m4, g1, g2, g3⟩ := pair.list (show calls lt ≤ deep by omega)
        refine ⟨p1, m1, m3, m4, T, b, e1, hr2 ▸ y1, rulesAt_spec ho2 (by omega), f1, ?_, hp0, ?_, ?_, g2⟩
        · simp [getPatternAt, g1, listVarsRec_ok, hsuf]
        · simp [g3, Mem.setVar, hp0]
        · simp [g3, Mem.setVar, hb]
      have hcl : calls (listVariables maxMappedVars lt).tree = calls lt := calls_listVariables _ _
      cases hrule : getRule ⟨(listVariables maxMappedVars lt).tree, fun _ => []⟩ body with
      | none =>
        rw [hrule] at h
        obtain ⟨d, hd1, hd2, hd3, hd4, rfl⟩ := fail_defined h
        refine ⟨hd4, n1 + calls lt + calls rt + calls body + depth s.funs, fun deep hd g fs S ms m p P ho hs hL h0 h2 => ?_⟩
        obtain ⟨p1, m1, m3, m4, R, b, e1, e2, e3, e4, e5, e6, e7, e8, e9⟩ := upto deep hd g fs S ms m p P ho hs hL h0 h2
        obtain ⟨m5, l', r', k1, k2, k3, k4, k5⟩ := (getRuleAt_spec e9 (deep := deep) (by omega) (by omega) fun _ => []).2 hrule
        obtain ⟨m6, m7, w1, w2, w3, w4, w5⟩ := k2.freed k3 k4
        refine ⟨none, m7, ?_, .inl ⟨rfl, rfl, w3, hd3⟩⟩
        have hv0 : (m3.setVar 2 (m3.vars 1)).vars 0 = some p := by simp [Mem.setVar, e6]
        simp only [Machine.addFunctionRightAt, e1, Out.bind_ok, e2, Machine.addRuleAt, e3, e4, hv0, e5, if_true, e7, e8, k1,
          Bool.false_eq_true, if_false, definitionFailAt, hd1, Out.of_ok, k5, w1, w4, w2, Out.pure_eq, hd2]
      | some rule =>
        rw [hrule] at h
        cases h
        refine ⟨rfl, n1 + calls lt + calls rt + calls body + depth s.funs, fun deep hd g fs S ms m p P ho hs hL h0 h2 => ?_⟩
        obtain ⟨p1, m1, m3, m4, R, b, e1, e2, e3, e4, e5, e6, e7, e8, e9⟩ := upto deep hd g fs S ms m p P ho hs hL h0 h2
        obtain ⟨m5, k1, k2, k3, k5⟩ := (getRuleAt_spec e9 (deep := deep) (by omega) (by omega) fun _ => []).1 rule hrule
        refine ⟨some ⟨p, b⟩, m5, ?_, .inr ⟨rfl, rule, p, b, P, R, rfl, rfl, k2, k3⟩⟩
        have hv0 : (m3.setVar 2 (m3.vars 1)).vars 0 = some p := by simp [Mem.setVar, e6]
        simp only [Machine.addFunctionRightAt, e1, Out.bind_ok, e2, Machine.addRuleAt, e3, e4, hv0, e5, if_true, e7, e8, k1,
          k5, Out.pure_eq]

end Verif
