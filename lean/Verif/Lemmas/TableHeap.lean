import Verif.Spec.MemoryTable
import Verif.Lemmas.ProgramMemory
import Verif.Lemmas.Table
import Verif.Props.Commands

/-!
# Lemmas on the table command in memory
-/

namespace Verif
open MemorySpec OwnershipProps OperandsSpec EvaluationMemoryProps ParserMemoryProps
variable {V ε : Type}

/-! ## Trees that are owned -/

theorem OwnsP.mono {base g : Nat → Option (Cell V)} {L : List (Tree V × Nat)} (h : OwnsP base L g) :
    ∀ a, base a ≠ none → g a = base a := by
  obtain ⟨S, -, -, h3, h4⟩ := h
  exact fun a ha => h4 a fun hS => ha (h3 a hS)

theorem OwnsP.copy (M : Malloc V) {m : Mem V} {t : Tree V} {p : Nat} {S : List Nat} {deep : Nat}
    (h : OwnershipSpec.Holds m.get t p S) (hd : calls t ≤ deep) :
    ∃ q m', copyTree M deep m (some p) = .ok (some q, m') ∧ OwnsP m.get [(t, q)] m'.get := by
  obtain ⟨q, m', T, e1, e2, e3, e4, e5, -⟩ := copyTree_spec M h hd
  exact ⟨q, m', e1, .of_one e2 e3 e4 e5⟩

theorem OwnsP.alloc (M : Malloc V) (m : Mem V) (v : V) :
    OwnsP m.get [(.const v 0, (m.alloc M (.const v 0)).1)] (m.alloc M (.const v 0)).2.get := by
  refine .of_one (S := [(m.alloc M (.const v 0)).1]) ⟨by simp [Mem.get_alloc], rfl⟩ (by simp)
    (by simp [Mem.alloc_fresh]) fun a ha => ?_
  rw [Mem.get_alloc, if_neg (by simpa using ha)]

/-- `replace_variable_nodes` on a tree that is owned, with a source that is owned. -/
theorem OwnsP.replace (M : Malloc V) {base : Nat → Option (Cell V)} {t u : Tree V} {p r y deep : Nat}
    {L : List (Tree V × Nat)} {m : Mem V} (h : OwnsP base ((t, p) :: L) m.get) (hu : (u, r) ∈ L)
    (hv : m.vars y = some p) (name : Str) (hd : calls t + calls u < deep) :
    ∃ q m', replaceVariable M (some r) name deep m (.var y) = .ok (none, m') ∧ m'.vars y = some q ∧
      OwnsP base (((replaceVar u name t).1, q) :: L) m'.get := by
  have hp : OwnsP base (L ++ [(t, p)]) m.get := h.perm (List.perm_append_singleton _ _).symm
  obtain ⟨g, h1, h2⟩ := hp.split
  obtain ⟨S, k1, k2, k3, k4⟩ := h2.one
  obtain ⟨R, hR⟩ := h1.present _ hu
  have hRS : ∀ a ∈ R, a ∉ S := fun a ha hS => hR.live a ha (k3 a hS)
  have hR' : OwnershipSpec.Holds m.get u r R := hR.congr fun a ha => k4 a (hRS a ha)
  have hat : OwnershipSpec.At m (.var y) t S := ⟨p, by simp [Mem.deref, hv], k1, k2, fun a k e => by cases e⟩
  obtain ⟨m', T, e1, q, e2, e3⟩ := replaceVariable_spec M (m0 := m) (U := fun a => a ∈ R) (W := fun _ => False) hR'
    (fun a ha => ha) (treeCopy_eq u) name t hat
    ⟨fun a ha => hR'.live a ha, fun _ _ => rfl, fun _ h => h.elim, fun a ha hR => hRS a hR ha, fun a k e => (by cases e),
      fun _ _ h => h⟩ hd
  refine ⟨q, m', e1, by simp [e3, putVar], ?_⟩
  have ho : OwnsP g [((replaceVar u name t).1, q)] m'.get := by
    refine .of_one e2.holds e2.nodup (fun a ha => ?_) fun a ha => ?_
    · rcases e2.fresh a ha with hS | hn
      · exact k3 a hS
      · by_cases hS : a ∈ S
        · exact k3 a hS
        · rw [← k4 a hS]; exact hn
    · by_cases hS : a ∈ S
      · rw [e2.freed a hS ha, k3 a hS]
      · rw [e2.frame a hS ha]; exact k4 a hS
  exact (h1.trans ho).perm (List.perm_append_singleton _ _)

mutual
theorem calls_replaceVar (v : V) (i : Nat) (name : Str) : ∀ t : Tree V, calls (replaceVar (.const v i) name t).1 = calls t
  | .const _ _ => by simp [replaceVar]
  | .var y k j => by
    unfold replaceVar
    split <;> simp [calls, treeCopy]
  | .op o cs j => by
    simp only [replaceVar, calls, callsAll_replaceVars v i name cs]
theorem callsAll_replaceVars (v : V) (i : Nat) (name : Str) : ∀ ts : List (Tree V),
    callsAll (replaceVars (.const v i) name ts).1 = callsAll ts
  | [] => by simp [replaceVars]
  | c :: cs => by
    simp only [replaceVars, callsAll, calls_replaceVar v i name c, callsAll_replaceVars v i name cs]
end

/-! ## `arith_parse` -/

theorem arithParseAt_spec (K : Machine V ε) (M : Malloc V) {F : Finder V} (hF : Finds K.dbl.eq F)
    (strtod : Str → Option V) {simp : Simp V} {s s' : Session V Unit} (hc : ArithLike s.ctx)
    {input : Str} {r : Option (Tree V)} (h : arithParse (valueClient K simp strtod) s input = .ok (s', r)) :
    s' = s ∧ ∃ n, ∀ deep ≥ n, ∀ fs S ms m, Owned m.get s.funs fs S → StoredSimp m.get simp ms →
      ∃ p m', K.arithParseAt M F deep strtod fs ms s.ctx input m = .ok (p, m') ∧
        (r = none → p = none ∧ m'.get = m.get) ∧
        ∀ t, r = some t → calls t ≤ deep ∧ ∃ q, p = some q ∧ OwnsP m.get [(t, q)] m'.get := by
  obtain ⟨w, hw⟩ := arithParse_same h
  refine ⟨hw, ?_⟩
  unfold arithParse at h
  obtain ⟨t, ht, hp⟩ := Out.bind_eq_ok.1 h
  rw [Out.of_eq_ok] at ht
  simp only [valueClient] at ht
  cases t with
  | none =>
    cases hp
    obtain ⟨e, k, hq⟩ := parseEasy_none ht
    refine ⟨0, fun deep hd fs S ms m ho hst => ?_⟩
    obtain ⟨m1, e1, e2, -⟩ := (C98_calculator M s.ctx hc strtod input m).2 e k hq
    exact ⟨none, m1, by simp [Machine.arithParseAt, e1], fun _ => ⟨rfl, e2⟩, fun t h => by cases h⟩
  | some t =>
    obtain ⟨⟨w', y⟩, hsim, hp⟩ := Out.bind_eq_ok.1 hp
    obtain ⟨t', k, q, ha, hr, hq⟩ := arithSimplify_value hsim
    cases hp
    obtain ⟨n, hn⟩ := arithSimplify_live K M hF (y := 1) (x := 3) (by decide) ha hr
    have read : ∀ m : Mem V, ∃ p m1 T,
        parseHeap M true s.ctx.env strtod (tokenize s.ctx.keywords input) m = .ok (.ok (some p), m1) ∧
        Live m.get m.vars 1 3 t (m1.setVar 1 (some p)) T := by
      intro m
      obtain ⟨p, m1, T, e1, e2, e3⟩ := (C98_calculator M s.ctx hc strtod input m).1 t (parseEasy_some ht)
      refine ⟨p, m1, T, e1, ⟨p, by simp [Mem.deref, Mem.setVar], e2.holds, e2.nodup, fun a k h => (by cases h)⟩, ?_, ?_, ?_⟩
      · intro a ha
        rcases e2.fresh a ha with h | h
        · cases h
        · exact h
      · intro a ha
        exact e2.frame a (by simp) ha
      · intro z hz _
        simp [Mem.setVar, hz, e3]
    have rules : ∀ {fs S} {m m1 : Mem V} {T} {deep : Nat}, Owned m.get s.funs fs S → Live m.get m.vars 1 3 t m1 T → depth s.funs ≤ deep →
        rulesAt deep m1 fs = .ok (memRules s.funs fs) := by
      intro fs S m m1 T deep ho hL hd
      exact rulesAt_spec (owned_congr ho fun a ha => hL.old a fun hT => owned_live ho a ha (hL.new a hT)) hd
    rcases hq with ⟨e, rfl, rfl⟩ | ⟨u, rfl, rfl⟩
    · refine ⟨n + depth s.funs, fun deep hd fs S ms m ho hst => ?_⟩
      obtain ⟨p, m1, T, e1, hL⟩ := read m
      obtain ⟨m3, f1, _, f3⟩ := hn deep (by omega) _ m.vars _ _ (owned_stored ho) hst _ T hL
      refine ⟨none, m3, ?_, fun _ => ⟨rfl, (f3 e rfl).1⟩, fun t h => by cases h⟩
      simp [Machine.arithParseAt, e1, rules ho hL (show _ ≤ deep by omega), f1, errorOf]
    · refine ⟨n + depth s.funs + calls u, fun deep hd fs S ms m ho hst => ?_⟩
      obtain ⟨p, m1, T, e1, hL⟩ := read m
      obtain ⟨m3, f1, f2, _⟩ := hn deep (by omega) _ m.vars _ _ (owned_stored ho) hst _ T hL
      obtain ⟨T3, h3⟩ := f2 u rfl
      obtain ⟨q, h4, h5, h6, _⟩ := h3.at_
      have hq : m3.vars 1 = some q := by simpa [Mem.deref] using h4
      refine ⟨some q, m3, ?_, fun h => (by cases h), fun t h => ?_⟩
      · simp [Machine.arithParseAt, e1, rules ho hL (show _ ≤ deep by omega), f1, errorOf, hq]
      · cases h
        exact ⟨by omega, q, rfl, .of_one h5 h6 h3.new h3.old⟩

theorem parseAllAt_spec (K : Machine V ε) (M : Malloc V) {F : Finder V} (hF : Finds K.dbl.eq F)
    (strtod : Str → Option V) {simp : Simp V} {s : Session V Unit} (hc : ArithLike s.ctx) :
    ∀ {is : List Str} {s' : Session V Unit} {r : Option (List (Tree V))},
    parseAll (valueClient K simp strtod) s is = .ok (s', r) →
    s' = s ∧ ∃ n, ∃ ts : List (Tree V), (∀ us, r = some us → ts = us) ∧ ∀ deep ≥ n, ∀ fs S ms m, Owned m.get s.funs fs S →
      StoredSimp m.get simp ms → ∃ L m', K.parseAllAt M F deep strtod fs ms s.ctx is m = .ok (r.isSome, L.map (·.2), m') ∧
        L.map (·.1) = ts ∧ Shallow deep L ∧ OwnsP m.get L m'.get
  | [], s', r, h => by
    cases h
    exact ⟨rfl, 0, [], fun us h => by cases h; rfl, fun deep _ fs S ms m _ _ =>
      ⟨[], m, rfl, rfl, fun x hx => by simp at hx, ownsP_nil.2 rfl⟩⟩
  | i :: is, s', r, h => by
    unfold parseAll at h
    obtain ⟨⟨s1, o⟩, h1, h⟩ := Out.bind_eq_ok.1 h
    obtain ⟨rfl, n1, k1⟩ := arithParseAt_spec K M hF strtod hc h1
    cases o with
    | none =>
      cases h
      refine ⟨rfl, n1, [], fun us h => (by cases h), fun deep hd fs S ms m ho hst => ?_⟩
      obtain ⟨p, m', e1, e2, -⟩ := k1 deep hd fs S ms m ho hst
      obtain ⟨rfl, e3⟩ := e2 rfl
      exact ⟨[], m', by simp [Machine.parseAllAt, e1], rfl, fun x hx => by simp at hx, ownsP_nil.2 e3⟩
    | some t =>
      obtain ⟨⟨s2, us⟩, h2, h⟩ := Out.bind_eq_ok.1 h
      cases h
      obtain ⟨rfl, n2, ts, k2, k3⟩ := parseAllAt_spec K M hF strtod hc h2
      refine ⟨rfl, n1 + n2, t :: ts, fun vs hv => ?_, fun deep hd fs S ms m ho hst => ?_⟩
      · cases us with
        | none => cases hv
        | some us => cases hv; rw [k2 us rfl]
      · obtain ⟨p, m1, e1, -, e2⟩ := k1 deep (by omega) fs S ms m ho hst
        obtain ⟨hd1, q, rfl, e3⟩ := e2 t rfl
        obtain ⟨L, m2, f1, f2, f3, f4⟩ := k3 deep (by omega) fs S ms m1
          (owned_congr ho fun a ha => e3.mono a (owned_live ho a ha)) (storedSimp_congr hst e3.mono)
        refine ⟨(t, q) :: L, m2, ?_, by simp [f2], fun x hx => ?_, e3.trans f4⟩
        · simp [Machine.parseAllAt, e1, f1]
        · rcases List.mem_cons.mp hx with rfl | hx
          · exact hd1
          · exact f3 x hx

/-! ## The loop -/

theorem evaluateAt_spec (K : Machine V ε) (simp : Simp V) (strtod : Str → Option V) (A : Stepping V) {t : Tree V} {m : Mem V}
    {p : Nat} {S : List Nat} {deep : Nat} {w w' : Unit} {hist : List V} {v : V} (h : OwnershipSpec.Holds m.get t p S)
    (hd : calls t ≤ deep) (he : arithEvaluate (tableProgram K simp strtod A) w hist t = .ok (w', v)) :
    K.evaluateAt deep m (some p) = .ok v := by
  have hr := reduceTree_spec K.arith K.varErr [] h hd
  unfold arithEvaluate at he
  simp only [tableProgram, Out.bind_ok, valueReduce] at he
  unfold Machine.evaluateAt
  rw [hr]
  cases hq : treeReduce K.arith K.varErr t [] with
  | ok v => rw [hq] at he; cases he; rfl
  | error e => rw [hq] at he; cases he; rfl

/-- A tree in memory where there is one. -/
def Kept (g : Nat → Option (Cell V)) : Option (Tree V) → Option Nat → Prop
  | none, none => True
  | some t, some p => ∃ S, OwnershipSpec.Holds g t p S
  | _, _ => False

/-- Its size. -/
def keptCalls : Option (Tree V) → Nat
  | none => 0
  | some t => calls t

theorem kept_congr {g h : Nat → Option (Cell V)} {f : Option (Tree V)} {p : Option Nat} (hk : Kept g f p)
    (hg : ∀ a, g a ≠ none → h a = g a) : Kept h f p := by
  cases f <;> cases p <;> try exact hk
  obtain ⟨S, hS⟩ := hk
  exact ⟨S, hS.congr fun a ha => hg a (hS.live a ha)⟩

theorem foldAt_spec (K : Machine V ε) (M : Malloc V) (simp : Simp V) (strtod : Str → Option V) (A : Stepping V)
    {fold : Option (Tree V)} {p : Option Nat} {m : Mem V} (hk : Kept m.get fold p) {deep : Nat}
    (hd : keptCalls fold + 2 ≤ deep) {w w' : Unit} {hist : List V} {acc v acc' : V}
    (h : foldStep (tableProgram K simp strtod A) hist fold w acc v = .ok (w', acc')) :
    ∃ m', K.foldAt M deep p m acc v = .ok (acc', m') ∧ m'.get = m.get := by
  cases fold with
  | none =>
    cases p with
    | none => cases h; exact ⟨m, rfl, rfl⟩
    | some _ => exact hk.elim
  | some f =>
    cases p with
    | none => exact hk.elim
    | some p =>
      obtain ⟨S, hS⟩ := hk
      simp only [keptCalls] at hd
      obtain ⟨q, m1, e1, o1⟩ := OwnsP.copy M hS (show calls f ≤ deep by omega)
      have o2 := o1.trans (OwnsP.alloc M m1 acc)
      have o3 := o2.trans (OwnsP.alloc M (m1.alloc M (.const acc 0)).2 v)
      simp only [List.cons_append, List.nil_append] at o3
      generalize hx : m1.alloc M (.const acc 0) = x at o2 o3
      generalize hy : x.2.alloc M (.const v 0) = y at o3
      obtain ⟨q1, m2, e2, v2, o4⟩ := OwnsP.replace M (m := y.2.setVar 5 (some q)) (y := 5) o3
        (u := .const acc 0) (r := x.1) (by simp) (by simp [Mem.setVar]) "x".toList (show _ < deep by simp [calls]; omega)
      obtain ⟨q2, m3, e3, v3, o5⟩ := OwnsP.replace M (m := m2) (y := 5) o4
        (u := .const v 0) (r := y.1) (by simp) v2 "y".toList (show _ < deep by simp [calls, calls_replaceVar]; omega)
      have hft : foldTree acc v f = (replaceVar (.const v 0) "y".toList (replaceVar (.const acc 0) "x".toList f).1).1 := by
        rw [foldTree, treeCopy_eq]
      rw [← hft] at o5
      obtain ⟨S3, hS3⟩ := o5.present (foldTree acc v f, q2) (by simp)
      have hc : calls (foldTree acc v f) ≤ deep := by
        rw [hft, calls_replaceVar, calls_replaceVar]; omega
      have hv := evaluateAt_spec K simp strtod A hS3 hc (show arithEvaluate _ w hist _ = .ok (w', acc') from h)
      obtain ⟨m4, e4, o6⟩ := OwnsP.free (m := m3) o5 hc
      obtain ⟨m5, e5, o7⟩ := OwnsP.free (m := m4) o6 (show calls (Tree.const acc 0) ≤ deep by simp [calls]; omega)
      obtain ⟨m6, e6, o8⟩ := OwnsP.free (m := m5) o7 (show calls (Tree.const v 0) ≤ deep by simp [calls]; omega)
      refine ⟨m6, ?_, ownsP_nil.1 o8⟩
      simp only [Machine.foldAt, e1, Out.bind_ok, hx, hy, e2, e3, v3, hv, e4, e5, e6, Out.pure_eq]

theorem rowAt_spec (K : Machine V ε) (M : Malloc V) (simp : Simp V) (strtod : Str → Option V) (A : Stepping V)
    {expr : Tree V} {e : Nat} {var : Option Str} {fold : Option (Tree V)} {p : Option Nat} {m : Mem V} {S : List Nat}
    (he : OwnershipSpec.Holds m.get expr e S) (hk : Kept m.get fold p) {deep : Nat}
    (hd : calls expr + keptCalls fold + 2 ≤ deep) {w w' : Unit} {hist : List V} {x acc acc' : V} {r : Option V}
    (h : tableRow (tableProgram K simp strtod A) hist expr var fold w x acc = .ok (w', r, acc')) :
    ∃ m', K.rowAt M deep e var p m x acc = .ok (r, acc', m') ∧ m'.get = m.get := by
  obtain ⟨q, m1, e1, o1⟩ := OwnsP.copy M he (show calls expr ≤ deep by omega)
  have o2 := o1.trans (OwnsP.alloc M m1 x)
  simp only [List.cons_append, List.nil_append] at o2
  generalize hx : m1.alloc M (.const x 0) = c at o2
  have put : ∃ q1 m2, Machine.putValueAt M deep var c.1 (c.2.setVar 4 (some q)) = .ok m2 ∧ m2.vars 4 = some q1 ∧
      OwnsP m.get [(rowTree var x expr, q1), (.const x 0, c.1)] m2.get ∧ calls (rowTree var x expr) = calls expr := by
    cases var with
    | none =>
      exact ⟨q, _, rfl, by simp [Mem.setVar], by rw [rowTree, treeCopy_eq]; exact o2, by rw [rowTree, treeCopy_eq]⟩
    | some n =>
      obtain ⟨q1, m2, e2, v2, o4⟩ := OwnsP.replace M (m := c.2.setVar 4 (some q)) (y := 4) o2
        (u := .const x 0) (r := c.1) (by simp) (by simp [Mem.setVar]) n (show _ < deep by simp [calls]; omega)
      refine ⟨q1, m2, by simp [Machine.putValueAt, e2], v2, ?_, ?_⟩
      · simp only [rowTree, treeCopy_eq]; exact o4
      · simp only [rowTree, treeCopy_eq, calls_replaceVar]
  obtain ⟨q1, m2, e2, v2, o3, hc⟩ := put
  obtain ⟨S2, hS2⟩ := o3.present (rowTree var x expr, q1) (by simp)
  have hr := reduceTree_spec K.arith K.varErr [] hS2 (show calls (rowTree var x expr) ≤ deep by omega)
  have res : ∃ m3, K.resultAt M deep p m2 acc (plain (treeReduce K.arith K.varErr (rowTree var x expr) [])) = .ok (r, acc', m3) ∧
      m3.get = m2.get := by
    unfold tableRow at h
    simp only [tableProgram, Out.bind_ok, valueReduce] at h
    cases hq : treeReduce K.arith K.varErr (rowTree var x expr) [] with
    | error e =>
      rw [hq] at h
      cases h
      exact ⟨m2, rfl, rfl⟩
    | ok v =>
      rw [hq] at h
      obtain ⟨⟨w2, acc2⟩, h1, h2⟩ := Out.bind_eq_ok.1 h
      cases h2
      obtain ⟨m3, k1, k2⟩ := foldAt_spec K M simp strtod A (kept_congr hk o3.mono) (show _ ≤ deep by omega) h1
      exact ⟨m3, by simp [plain, Machine.resultAt, k1], k2⟩
  obtain ⟨m3, e3, g3⟩ := res
  rw [← g3] at o3
  obtain ⟨m4, e4, o4⟩ := OwnsP.free o3 (show calls (rowTree var x expr) ≤ deep by omega)
  obtain ⟨m5, e5, o5⟩ := OwnsP.free o4 (show calls (Tree.const x 0) ≤ deep by simp [calls]; omega)
  refine ⟨m5, ?_, ownsP_nil.1 o5⟩
  simp only [Machine.rowAt, e1, Out.bind_ok, hx, e2, v2, hr, e3, e4, e5, Out.pure_eq]

theorem rowsAt_spec (K : Machine V ε) (M : Malloc V) (simp : Simp V) (strtod : Str → Option V) (A : Stepping V)
    {expr : Tree V} {e : Nat} {var : Option Str} {fold : Option (Tree V)} {p : Option Nat} {S : List Nat} {deep : Nat}
    (hd : calls expr + keptCalls fold + 2 ≤ deep) {hist : List V} {stop step : V} :
    ∀ {k : Nat} {m : Mem V} {w w' : Unit} {x acc acc' : V} {rows : List (TableRow V)},
    OwnershipSpec.Holds m.get expr e S → Kept m.get fold p →
    tableLoop (tableProgram K simp strtod A) hist expr var fold stop step k w x acc = .ok (w', rows, acc') →
    ∃ m', K.rowsAt M deep A e var p stop step k m x acc = .ok (rows, acc', m') ∧ m'.get = m.get
  | 0, m, w, w', x, acc, acc', rows, he, hk, h => by cases h
  | k + 1, m, w, w', x, acc, acc', rows, he, hk, h => by
    unfold tableLoop at h
    have hin : inRange (tableProgram K simp strtod A) stop step x = K.within stop step x := rfl
    rw [hin] at h
    unfold Machine.rowsAt
    cases hb : K.within stop step x with
    | false =>
      rw [hb] at h
      cases h
      exact ⟨m, rfl, rfl⟩
    | true =>
      rw [hb] at h
      simp only [if_true] at h ⊢
      obtain ⟨⟨w1, v, acc1⟩, h1, h⟩ := Out.bind_eq_ok.1 h
      obtain ⟨⟨w2, rows2, acc2⟩, h2, h⟩ := Out.bind_eq_ok.1 h
      cases h
      obtain ⟨m1, e1, e2⟩ := rowAt_spec K M simp strtod A he hk hd h1
      obtain ⟨m2, e3, e4⟩ := rowsAt_spec K M simp strtod A hd (m := m1) (e2 ▸ he) (e2 ▸ hk) h2
      refine ⟨m2, ?_, e4.trans e2⟩
      have e3' : K.rowsAt M deep A e var p stop step k m1 (A.add x step) acc1 = .ok (rows2, acc2, m2) := e3
      simp only [e1, Out.bind_ok, e3', Out.pure_eq]

/-! ## The command -/

theorem showAt_spec (K : Machine V ε) (M : Malloc V) (simp : Simp V) (strtod : Str → Option V) (A : Stepping V)
    {base : Nat → Option (Cell V)} {P : List (Tree V × Nat)} {m : Mem V} (ho : OwnsP base P m.get) {deep : Nat}
    (hs : Shallow deep P) {s s' : Session V Unit} {expr : Tree V} {e : Nat} (he : (expr, e) ∈ P) {var : Option Str}
    {start stop step : V} {fold : Option (Tree V × V)} {p : Option (Nat × V)}
    (hf : (fold = none ∧ p = none) ∨ ∃ f a q, fold = some (f, a) ∧ p = some (q, a) ∧ (f, q) ∈ P)
    (hd : calls expr + keptCalls (fold.map (·.1)) + 2 ≤ deep) {r : Option (TableOut V)}
    (h : tableShow (tableProgram K simp strtod A) s expr var start stop step fold = .ok (s', r)) :
    ∃ m', K.showAt M deep A s.hist (P.map (·.2)) e var start stop step p m = .ok (r, s'.hist, m') ∧ m'.get = base := by
  unfold tableShow at h
  obtain ⟨⟨w, rows, acc⟩, h1, h⟩ := Out.bind_eq_ok.1 h
  obtain ⟨S, hS⟩ := ho.present _ he
  have hk : Kept m.get (fold.map (·.1)) (p.map (·.1)) := by
    rcases hf with ⟨rfl, rfl⟩ | ⟨f, a, q, rfl, rfl, hq⟩
    · exact True.intro
    · exact ho.present _ hq
  obtain ⟨m1, e1, e2⟩ := rowsAt_spec K M simp strtod A hd hS hk h1
  rw [← e2] at ho
  obtain ⟨m2, e3, e4⟩ := OwnsP.freeTrees (L := P) (L' := []) (by rw [List.append_nil]; exact ho) hs
  refine ⟨m2, ?_, ownsP_nil.1 e4⟩
  rcases hf with ⟨rfl, rfl⟩ | ⟨f, a, q, rfl, rfl, hq⟩
  · cases h
    have e1' : K.rowsAt M deep A e var none stop (K.directed A start stop step) A.rounds m start (K.dbl.ofNat 0)
        = .ok (rows, acc, m1) := e1
    simp only [Machine.showAt, Option.map_none, e1', Out.bind_ok, e3, Out.pure_eq]
  · cases h
    have e1' : K.rowsAt M deep A e var (some q) stop (K.directed A start stop step) A.rounds m start a
        = .ok (rows, acc, m1) := e1
    simp only [Machine.showAt, Option.map_some, e1', Out.bind_ok, e3, Out.pure_eq]

theorem abandonAt_spec {base : Nat → Option (Cell V)} {P : List (Tree V × Nat)} {m : Mem V} (ho : OwnsP base P m.get)
    {deep : Nat} (hs : Shallow deep P) (hist : List V) :
    ∃ m', Machine.abandonAt deep hist (P.map (·.2)) m = .ok (none, hist, m') ∧ m'.get = base := by
  obtain ⟨m2, e3, e4⟩ := OwnsP.freeTrees (L := P) (L' := []) (by rw [List.append_nil]; exact ho) hs
  exact ⟨m2, by simp [Machine.abandonAt, e3], ownsP_nil.1 e4⟩

theorem shallow_append {deep : Nat} {P Q : List (Tree V × Nat)} (h : Shallow deep P) (k : Shallow deep Q) :
    Shallow deep (P ++ Q) := fun x hx => by
  rcases List.mem_append.mp hx with hx | hx
  · exact h x hx
  · exact k x hx

theorem two_of {L : List (Tree V × Nat)} {f i : Tree V} (h : L.map (·.1) = [f, i]) : ∃ a b, L = [(f, a), (i, b)] := by
  rcases L with _ | ⟨⟨x, a⟩, _ | ⟨⟨y, b⟩, _ | ⟨z, L⟩⟩⟩ <;> simp at h
  obtain ⟨rfl, rfl⟩ := h
  exact ⟨a, b, rfl⟩

theorem three_of {L : List (Tree V × Nat)} {f i j : Tree V} (h : L.map (·.1) = [f, i, j]) :
    ∃ a b c, L = [(f, a), (i, b), (j, c)] := by
  rcases L with _ | ⟨⟨x, a⟩, _ | ⟨⟨y, b⟩, _ | ⟨⟨z, c⟩, _ | ⟨u, L⟩⟩⟩⟩ <;> simp at h
  obtain ⟨rfl, rfl, rfl⟩ := h
  exact ⟨a, b, c, rfl⟩

theorem tableFoldAt_stop {K : Machine V ε} {M : Malloc V} {F : Finder V} {deep : Nat} {strtod : Str → Option V} {A : Stepping V}
    {funs : List MemFun} {ms : MemSimp V} {c : Ctx} {hist : List V} {ps : List Nat} {e : Nat} {var : Option Str}
    {start stop step : V} {m m1 : Mem V} {t : Str} {more : List Str} {b : Bool} {qs : List Nat}
    (h : K.parseAllAt M F deep strtod funs ms c (t :: more) m = .ok (b, qs, m1)) (hn : b = false ∨ qs.length ≠ 2) :
    K.tableFoldAt M F deep strtod A funs ms c hist ps e var start stop step m (t :: more)
      = Machine.abandonAt deep hist (ps ++ qs) m1 := by
  simp only [Machine.tableFoldAt, h, Out.bind_ok]
  rcases b with _ | _
  · rfl
  · rcases qs with _ | ⟨x, _ | ⟨y, _ | ⟨z, qs⟩⟩⟩
    · rfl
    · rfl
    · simp at hn
    · rfl

theorem tableBoundsAt_stop {K : Machine V ε} {M : Malloc V} {F : Finder V} {deep : Nat} {strtod : Str → Option V} {A : Stepping V}
    {funs : List MemFun} {ms : MemSimp V} {c : Ctx} {hist : List V} {e : Nat} {var : Option Str}
    {m m1 : Mem V} {bounds more : List Str} {b : Bool} {qs : List Nat}
    (h : K.parseAllAt M F deep strtod funs ms c bounds m = .ok (b, qs, m1)) (hn : b = false ∨ qs.length ≠ 3) :
    K.tableBoundsAt M F deep strtod A funs ms c hist e var bounds more m
      = Machine.abandonAt deep hist (e :: qs) m1 := by
  simp only [Machine.tableBoundsAt, h, Out.bind_ok]
  rcases b with _ | _
  · rfl
  · rcases qs with _ | ⟨x, _ | ⟨y, _ | ⟨z, _ | ⟨u, qs⟩⟩⟩⟩
    · rfl
    · rfl
    · rfl
    · simp at hn
    · rfl

section
variable (K : Machine V ε) (M : Malloc V) {F : Finder V} (hF : Finds K.dbl.eq F) (strtod : Str → Option V) {simp : Simp V}
  (A : Stepping V) {s s' : Session V Unit} (hc : ArithLike s.ctx)
include hF hc

/-- Several texts, while there are other trees. -/
theorem parseMore {is : List Str} {r : Option (List (Tree V))}
    (h : parseAll (valueClient K simp strtod) s is = .ok (s', r)) :
    s' = s ∧ ∃ n, ∃ ts : List (Tree V), (∀ us, r = some us → ts = us) ∧ ∀ deep ≥ n, ∀ base P m, OwnsP base P m.get →
      Shallow deep P → ∀ fs S ms, Owned base s.funs fs S → StoredSimp base simp ms → ∃ L m',
        K.parseAllAt M F deep strtod fs ms s.ctx is m = .ok (r.isSome, L.map (·.2), m') ∧
        L.map (·.1) = ts ∧ Shallow deep (P ++ L) ∧ OwnsP base (P ++ L) m'.get := by
  obtain ⟨e, n, ts, k1, k2⟩ := parseAllAt_spec K M hF strtod hc h
  refine ⟨e, n, ts, k1, fun deep hd base P m ho hs fs S ms hown hst => ?_⟩
  obtain ⟨L, m', e1, e2, e3, e4⟩ := k2 deep hd fs S ms m (owned_congr hown fun a ha => ho.mono a (owned_live hown a ha))
    (storedSimp_congr hst ho.mono)
  exact ⟨L, m', e1, e2, shallow_append hs e3, ho.trans e4⟩

/-- The fold part. -/
theorem tableFoldAt_spec {expr : Tree V} {var : Option Str} {start stop step : V} {more : List Str} {r : Option (TableOut V)}
    (h : tableFold (tableProgram K simp strtod A) s expr var start stop step more = .ok (s', r)) :
    ∃ n, ∀ deep ≥ n, ∀ base P m e, OwnsP base P m.get → Shallow deep P → (expr, e) ∈ P → ∀ fs S ms, Owned base s.funs fs S →
      StoredSimp base simp ms → ∃ m',
      K.tableFoldAt M F deep strtod A fs ms s.ctx s.hist (P.map (·.2)) e var start stop step m more = .ok (r, s'.hist, m') ∧
        m'.get = base := by
  cases more with
  | nil =>
    refine ⟨calls expr + 2, fun deep hd base P m e ho hs he fs S ms _ _ => ?_⟩
    exact showAt_spec K M simp strtod A ho hs he (.inl ⟨rfl, rfl⟩) (by simp [keptCalls]; omega) h
  | cons t more =>
    unfold tableFold at h
    obtain ⟨⟨s1, o⟩, h1, h⟩ := Out.bind_eq_ok.1 h
    obtain ⟨e0, n, ts, k1, k2⟩ := parseMore K M hF strtod hc h1
    subst e0
    -- without two trees
    have away : (o = none ∨ ts.length ≠ 2) → s' = s1 → r = none → ∃ n, ∀ deep ≥ n, ∀ base P m e, OwnsP base P m.get →
        Shallow deep P → (expr, e) ∈ P → ∀ fs S ms, Owned base s1.funs fs S → StoredSimp base simp ms → ∃ m',
        K.tableFoldAt M F deep strtod A fs ms s1.ctx s1.hist (P.map (·.2)) e var start stop step m (t :: more)
          = .ok (r, s'.hist, m') ∧ m'.get = base := by
      intro hn es er
      refine ⟨n, fun deep hd base P m e ho hs he fs S ms hown hst => ?_⟩
      obtain ⟨L, m', e1, e2, e3, e4⟩ := k2 deep hd base P m ho hs fs S ms hown hst
      obtain ⟨m2, f1, f2⟩ := abandonAt_spec e4 e3 _
      refine ⟨m2, ?_, f2⟩
      rw [tableFoldAt_stop e1, ← List.map_append, f1, es, er]
      rcases hn with rfl | hn
      · exact .inl rfl
      · exact .inr (by rw [← e2] at hn; simpa using hn)
    cases o with
    | none => cases h; exact away (.inl rfl) rfl rfl
    | some us =>
      obtain rfl := k1 us rfl
      rcases ts with _ | ⟨f, _ | ⟨i, _ | ⟨j, us⟩⟩⟩
      · cases h; exact away (.inr (by simp)) rfl rfl
      · cases h; exact away (.inr (by simp)) rfl rfl
      · simp only at h
        have there : ∀ deep ≥ n, ∀ base P m, OwnsP base P m.get → Shallow deep P → ∀ fs S ms, Owned base s1.funs fs S →
            StoredSimp base simp ms → ∃ a b m', K.parseAllAt M F deep strtod fs ms s1.ctx (t :: more) m = .ok (true, [a, b], m') ∧
              Shallow deep (P ++ [(f, a), (i, b)]) ∧ OwnsP base (P ++ [(f, a), (i, b)]) m'.get ∧
              Machine.foldVarsAt deep m' a = .ok (foldVarsOk f) ∧ countVariables deep m' (some b) = .ok (countVars i) := by
          intro deep hd base P m ho hs fs S ms hown hst
          obtain ⟨L, m', e1, e2, e3, e4⟩ := k2 deep hd base P m ho hs fs S ms hown hst
          obtain ⟨a, b, rfl⟩ := two_of e2
          obtain ⟨S1, g1⟩ := e4.present (f, a) (by simp)
          obtain ⟨S2, g2⟩ := e4.present (i, b) (by simp)
          have d1 : calls f ≤ deep := e3 (f, a) (by simp)
          have d2 : calls i ≤ deep := e3 (i, b) (by simp)
          refine ⟨a, b, m', e1, e3, e4, ?_, countVariables_spec g2 d2⟩
          simp only [Machine.foldVarsAt, countVariables_spec g1 d1, countNamed_spec _ [] 0 g1 d1, Out.bind_ok, Out.pure_eq, foldVarsOk]
        by_cases hf : foldVarsOk f = true
        · by_cases hi : countVars i = 0
          · simp only [hf, hi, Bool.not_true, Bool.false_eq_true, if_false, ne_eq, not_true_eq_false] at h
            obtain ⟨⟨w, a0⟩, h2, h3⟩ := Out.bind_eq_ok.1 h
            refine ⟨n + calls expr + calls f + calls i + 2, fun deep hd base P m e ho hs he fs S ms hown hst => ?_⟩
            obtain ⟨a, b, m', e1, e3, e4, e5, e6⟩ := there deep (by omega) base P m ho hs fs S ms hown hst
            obtain ⟨S2, g2⟩ := e4.present (i, b) (by simp)
            have hv := evaluateAt_spec K simp strtod A g2 (e3 (i, b) (by simp)) h2
            obtain ⟨m2, f1, f2⟩ := showAt_spec K M simp strtod A e4 e3 (s := { s1 with world := w })
              (List.mem_append_left _ he) (fold := some (f, a0)) (p := some (a, a0)) (.inr ⟨f, a0, a, rfl, rfl, by simp⟩)
              (by simp [keptCalls]; omega) h3
            refine ⟨m2, ?_, f2⟩
            simp only [List.map_append, List.map_cons, List.map_nil] at f1
            simp only [Machine.tableFoldAt, e1, Out.bind_ok, e5, hf, Bool.not_true, Bool.false_eq_true, if_false, e6, hi, ne_eq,
              not_true_eq_false, hv]
            exact f1
          · simp only [hf, hi, Bool.not_true, Bool.false_eq_true, if_false, ne_eq, not_false_eq_true, if_true] at h
            cases h
            refine ⟨n, fun deep hd base P m e ho hs he fs S ms hown hst => ?_⟩
            obtain ⟨a, b, m', e1, e3, e4, e5, e6⟩ := there deep (by omega) base P m ho hs fs S ms hown hst
            obtain ⟨m2, f1, f2⟩ := abandonAt_spec e4 e3 _
            refine ⟨m2, ?_, f2⟩
            simp only [List.map_append, List.map_cons, List.map_nil] at f1
            simp only [Machine.tableFoldAt, e1, Out.bind_ok, e5, hf, Bool.not_true, Bool.false_eq_true, if_false, e6, hi, ne_eq,
              not_false_eq_true, if_true]
            exact f1
        · rw [Bool.not_eq_true] at hf
          simp only [hf, Bool.not_false, if_true] at h
          cases h
          refine ⟨n, fun deep hd base P m e ho hs he fs S ms hown hst => ?_⟩
          obtain ⟨a, b, m', e1, e3, e4, e5, e6⟩ := there deep (by omega) base P m ho hs fs S ms hown hst
          obtain ⟨m2, f1, f2⟩ := abandonAt_spec e4 e3 _
          refine ⟨m2, ?_, f2⟩
          simp only [List.map_append, List.map_cons, List.map_nil] at f1
          simp only [Machine.tableFoldAt, e1, Out.bind_ok, e5, hf, Bool.not_false, if_true]
          exact f1
      · cases h; exact away (.inr (by simp)) rfl rfl

/-- The bounds. -/
theorem tableBoundsAt_spec {expr : Tree V} {var : Option Str} {bounds more : List Str} {r : Option (TableOut V)}
    (h : tableBounds (tableProgram K simp strtod A) s expr var bounds more = .ok (s', r)) :
    ∃ n, ∀ deep ≥ n, ∀ base m e, OwnsP base [(expr, e)] m.get → calls expr ≤ deep → ∀ fs S ms, Owned base s.funs fs S →
      StoredSimp base simp ms → ∃ m',
      K.tableBoundsAt M F deep strtod A fs ms s.ctx s.hist e var bounds more m = .ok (r, s'.hist, m') ∧
        m'.get = base := by
  unfold tableBounds at h
  obtain ⟨⟨s1, o⟩, h1, h⟩ := Out.bind_eq_ok.1 h
  obtain ⟨e0, n, ts, k1, k2⟩ := parseMore K M hF strtod hc h1
  subst e0
  have one : ∀ {deep e}, calls expr ≤ deep → Shallow deep [(expr, e)] := fun hd x hx => by
    obtain rfl := List.mem_singleton.mp hx; exact hd
  have away : (o = none ∨ ts.length ≠ 3) → s' = s1 → r = none → ∃ n, ∀ deep ≥ n, ∀ base m e, OwnsP base [(expr, e)] m.get →
      calls expr ≤ deep → ∀ fs S ms, Owned base s1.funs fs S → StoredSimp base simp ms → ∃ m',
      K.tableBoundsAt M F deep strtod A fs ms s1.ctx s1.hist e var bounds more m
        = .ok (r, s'.hist, m') ∧ m'.get = base := by
    intro hn es er
    refine ⟨n, fun deep hd base m e ho hs fs S ms hown hst => ?_⟩
    obtain ⟨L, m', e1, e2, e3, e4⟩ := k2 deep hd base _ m ho (one hs) fs S ms hown hst
    obtain ⟨m2, f1, f2⟩ := abandonAt_spec e4 e3 _
    refine ⟨m2, ?_, f2⟩
    rw [tableBoundsAt_stop e1]
    · rw [es, er]; exact f1
    · rcases hn with rfl | hn
      · exact .inl rfl
      · exact .inr (by rw [← e2] at hn; simpa using hn)
  cases o with
  | none => cases h; exact away (.inl rfl) rfl rfl
  | some us =>
    obtain rfl := k1 us rfl
    rcases ts with _ | ⟨a, _ | ⟨b, _ | ⟨c, _ | ⟨d, us⟩⟩⟩⟩
    · cases h; exact away (.inr (by simp)) rfl rfl
    · cases h; exact away (.inr (by simp)) rfl rfl
    · cases h; exact away (.inr (by simp)) rfl rfl
    · simp only at h
      have there : ∀ deep ≥ n, ∀ base m e, OwnsP base [(expr, e)] m.get → calls expr ≤ deep → ∀ fs S ms,
          Owned base s1.funs fs S → StoredSimp base simp ms → ∃ x y z m',
          K.parseAllAt M F deep strtod fs ms s1.ctx bounds m = .ok (true, [x, y, z], m') ∧
            Shallow deep [(expr, e), (a, x), (b, y), (c, z)] ∧ OwnsP base [(expr, e), (a, x), (b, y), (c, z)] m'.get := by
        intro deep hd base m e ho hs fs S ms hown hst
        obtain ⟨L, m', e1, e2, e3, e4⟩ := k2 deep hd base _ m ho (one hs) fs S ms hown hst
        obtain ⟨x, y, z, rfl⟩ := three_of e2
        exact ⟨x, y, z, m', e1, e3, e4⟩
      have counts : ∀ {deep base m' e x y z}, Shallow deep [(expr, e), (a, x), (b, y), (c, z)] →
          OwnsP base [(expr, e), (a, x), (b, y), (c, z)] (Mem.get m') → countVariables deep m' (some x) = .ok (countVars a) ∧
            countVariables deep m' (some y) = .ok (countVars b) ∧ countVariables deep m' (some z) = .ok (countVars c) := by
        intro deep base m' e x y z e3 e4
        obtain ⟨S1, g1⟩ := e4.present (a, x) (by simp)
        obtain ⟨S2, g2⟩ := e4.present (b, y) (by simp)
        obtain ⟨S3, g3⟩ := e4.present (c, z) (by simp)
        exact ⟨countVariables_spec g1 (e3 (a, x) (by simp)), countVariables_spec g2 (e3 (b, y) (by simp)),
          countVariables_spec g3 (e3 (c, z) (by simp))⟩
      by_cases hcv : (countVars a ≠ 0 || countVars b ≠ 0 || countVars c ≠ 0) = true
      · rw [if_pos hcv] at h
        cases h
        refine ⟨n, fun deep hd base m e ho hs fs S ms hown hst => ?_⟩
        obtain ⟨x, y, z, m', e1, e3, e4⟩ := there deep hd base m e ho hs fs S ms hown hst
        obtain ⟨c1, c2, c3⟩ := counts e3 e4
        obtain ⟨m2, f1, f2⟩ := abandonAt_spec e4 e3 _
        refine ⟨m2, ?_, f2⟩
        simp only [List.map_cons, List.map_nil] at f1
        simp only [Machine.tableBoundsAt, e1, Out.bind_ok, Machine.boundsAt, c1, c2, c3]
        rw [if_pos hcv]
        exact f1
      · rw [if_neg hcv] at h
        obtain ⟨⟨w1, v1⟩, a1, h⟩ := Out.bind_eq_ok.1 h
        obtain ⟨⟨w2, v2⟩, a2, h⟩ := Out.bind_eq_ok.1 h
        obtain ⟨⟨w3, v3⟩, a3, h⟩ := Out.bind_eq_ok.1 h
        have bounded : ∀ {deep base m' e x y z}, Shallow deep [(expr, e), (a, x), (b, y), (c, z)] →
            OwnsP base [(expr, e), (a, x), (b, y), (c, z)] (Mem.get m') →
            K.boundsAt deep m' x y z = .ok (some (v1, v2, v3)) := by
          intro deep base m' e x y z e3 e4
          obtain ⟨c1, c2, c3⟩ := counts e3 e4
          obtain ⟨S1, g1⟩ := e4.present (a, x) (by simp)
          obtain ⟨S2, g2⟩ := e4.present (b, y) (by simp)
          obtain ⟨S3, g3⟩ := e4.present (c, z) (by simp)
          simp only [Machine.boundsAt, c1, c2, c3, Out.bind_ok]
          rw [if_neg hcv]
          simp only [evaluateAt_spec K simp strtod A g1 (e3 (a, x) (by simp)) a1,
            evaluateAt_spec K simp strtod A g2 (e3 (b, y) (by simp)) a2,
            evaluateAt_spec K simp strtod A g3 (e3 (c, z) (by simp)) a3, Out.bind_ok, Out.pure_eq]
        have hz : (tableProgram K simp strtod A).eqV v3 (tableProgram K simp strtod A).zero = K.dbl.eq v3 (K.dbl.ofNat 0) := rfl
        rw [hz] at h
        cases hq : K.dbl.eq v3 (K.dbl.ofNat 0) with
        | true =>
          rw [hq] at h
          cases h
          refine ⟨n, fun deep hd base m e ho hs fs S ms hown hst => ?_⟩
          obtain ⟨x, y, z, m', e1, e3, e4⟩ := there deep hd base m e ho hs fs S ms hown hst
          obtain ⟨m2, f1, f2⟩ := abandonAt_spec e4 e3 _
          refine ⟨m2, ?_, f2⟩
          simp only [List.map_cons, List.map_nil] at f1
          simp only [Machine.tableBoundsAt, e1, Out.bind_ok, bounded e3 e4, hq, if_true]
          exact f1
        | false =>
          rw [hq] at h
          simp only [Bool.false_eq_true, if_false] at h
          obtain ⟨n2, k3⟩ := tableFoldAt_spec K M hF strtod A (s := { s1 with world := w3 }) hc h
          refine ⟨n + n2, fun deep hd base m e ho hs fs S ms hown hst => ?_⟩
          obtain ⟨x, y, z, m', e1, e3, e4⟩ := there deep (by omega) base m e ho hs fs S ms hown hst
          obtain ⟨m2, f1, f2⟩ := k3 deep (by omega) base _ m' e e4 e3 (by simp) fs S ms hown hst
          refine ⟨m2, ?_, f2⟩
          simp only [List.map_cons, List.map_nil] at f1
          simp only [Machine.tableBoundsAt, e1, Out.bind_ok, bounded e3 e4, hq, Bool.false_eq_true, if_false]
          exact f1
    · cases h; exact away (.inr (by simp)) rfl rfl

theorem tableExprAt_spec {is : List Str} {r : Option (TableOut V)}
    (h : tableExpr (tableProgram K simp strtod A) s is = .ok (s', r)) :
    ∃ n, ∀ deep ≥ n, ∀ m : Mem V, ∀ fs S ms, Owned m.get s.funs fs S → StoredSimp m.get simp ms → ∃ m',
      K.tableExprAt M F deep strtod A fs ms s.ctx s.hist m is = .ok (r, s'.hist, m') ∧ m'.get = m.get := by
  rcases is with _ | ⟨x, _ | ⟨a, _ | ⟨b, _ | ⟨c, more⟩⟩⟩⟩
  · cases h
  · cases h
  · cases h
  · cases h
  · unfold tableExpr at h
    obtain ⟨⟨s1, o⟩, h1, h⟩ := Out.bind_eq_ok.1 h
    obtain ⟨e0, n, k1⟩ := arithParseAt_spec K M hF strtod hc h1
    subst e0
    cases o with
    | none =>
      cases h
      refine ⟨n, fun deep hd m fs S ms ho hst => ?_⟩
      obtain ⟨p, m', e1, e2, -⟩ := k1 deep hd fs S ms m ho hst
      obtain ⟨rfl, e3⟩ := e2 rfl
      exact ⟨m', by simp [Machine.tableExprAt, e1], e3⟩
    | some t =>
      simp only at h
      have there : ∀ deep ≥ n, ∀ m fs S ms, Owned m.get s1.funs fs S → StoredSimp m.get simp ms → ∃ q m1 m2,
          K.arithParseAt M F deep strtod fs ms s1.ctx x m = .ok (some q, m1) ∧
          listVarsAt 1 deep m1 (some q) [] true = .ok (m2, (listVariables 1 t).vars, (listVariables 1 t).sufficient) ∧
          OwnsP m.get [((listVariables 1 t).tree, q)] m2.get ∧ calls (listVariables 1 t).tree ≤ deep := by
        intro deep hd m fs S ms ho hst
        obtain ⟨p, m1, e1, -, e2⟩ := k1 deep hd fs S ms m ho hst
        obtain ⟨d1, q, rfl, e3⟩ := e2 t rfl
        obtain ⟨S1, g1, g2, g3⟩ := e3.change
        obtain ⟨m2, f1, f2, f3, -⟩ := listVarsAt_spec 1 (vs := []) (ok := true) g1 g2 d1
        refine ⟨q, m1, m2, e1, ?_, ?_, by rw [calls_listVariables]; exact d1⟩
        · rw [f1, ← listVarsRec_vars, ← listVarsRec_ok]
        · rw [← listVarsRec_tree]; exact g3 _ m2 f2 f3
      cases hsuf : (listVariables 1 t).sufficient with
      | false =>
        rw [hsuf] at h
        cases h
        refine ⟨n, fun deep hd m fs S ms ho hst => ?_⟩
        obtain ⟨q, m1, m2, e1, e2, e3, e4⟩ := there deep hd m fs S ms ho hst
        obtain ⟨m3, f1, f2⟩ := abandonAt_spec e3 (deep := deep) (fun y hy => by obtain rfl := List.mem_singleton.mp hy; exact e4) _
        refine ⟨m3, ?_, f2⟩
        rw [hsuf] at e2
        simp only [List.map_cons, List.map_nil] at f1
        simp only [Machine.tableExprAt, e1, Out.bind_ok, e2, Bool.not_false, if_true]
        exact f1
      | true =>
        rw [hsuf] at h
        simp only [Bool.not_true, Bool.false_eq_true, if_false] at h
        obtain ⟨n2, k2⟩ := tableBoundsAt_spec K M hF strtod A hc h
        refine ⟨n + n2, fun deep hd m fs S ms ho hst => ?_⟩
        obtain ⟨q, m1, m2, e1, e2, e3, e4⟩ := there deep (by omega) m fs S ms ho hst
        obtain ⟨m3, f1, f2⟩ := k2 deep (by omega) m.get m2 q e3 e4 fs S ms ho hst
        refine ⟨m3, ?_, f2⟩
        rw [hsuf] at e2
        simp only [Machine.tableExprAt, e1, Out.bind_ok, e2, Bool.not_true, Bool.false_eq_true, if_false, f1]

/-- The whole command. -/
theorem tableAt_spec {input : Str} {r : Option (TableOut V)}
    (h : tableExec (tableProgram K simp strtod A) s input = .ok (s', r)) :
    ∃ n, ∀ deep ≥ n, ∀ fs S ms m, Owned m.get s.funs fs S → StoredSimp m.get simp ms → ∃ m',
      K.tableAt M F deep strtod A ms ⟨s.ctx, fs, s.hist, m⟩ input = .ok (r, s'.hist, m') ∧ m'.get = m.get := by
  unfold tableExec at h
  dsimp only at h
  by_cases hl : (strSplit (input ++ [nul]) tableCommand.length tableDelims).2.length ≠ 4 ∧
      (strSplit (input ++ [nul]) tableCommand.length tableDelims).2.length ≠ 6
  · rw [if_pos hl] at h
    cases h
    refine ⟨0, fun deep _ fs S ms m _ _ => ⟨m, ?_, rfl⟩⟩
    unfold Machine.tableAt
    dsimp only
    rw [if_pos hl]
  · rw [if_neg hl] at h
    obtain ⟨⟨t, os⟩, h1, h⟩ := Out.bind_eq_ok.1 h
    obtain ⟨n, hn⟩ := tableExprAt_spec K M hF strtod A hc h
    refine ⟨n, fun deep hd fs S ms m ho hst => ?_⟩
    obtain ⟨m', e1, e2⟩ := hn deep hd m fs S ms ho hst
    refine ⟨m', ?_, e2⟩
    unfold Machine.tableAt
    dsimp only
    rw [if_neg hl, h1]
    exact e1

end

/-! ## The program -/

theorem entryAt_spec (K : Machine V ε) (M : Malloc V) {F : Finder V} (hF : Finds K.dbl.eq F) {prop : Ctx}
    (hprop : propCtx = .ok prop) {strtod : Str → Option V} (hstr : ∀ tok ∈ patternToks, strtod tok = none) (A : Stepping V)
    {s s' : ValueProgram V} {D : List (FunDef V)} (hs : Sess s.session D) {i : Entry}
    (hw : WellFormedEntry prop strtod i) (h : entryOn K prop strtod A s i = .ok s') :
    (∃ D', Sess s'.session D') ∧ ∃ n, ∀ deep ≥ n, ∀ base sm, ProgramInMemory base s sm →
      ∃ sm', K.entryAt M F deep prop strtod A sm i = .ok sm' ∧ ProgramInMemory base s' sm' := by
  cases i with
  | other i => exact programInputAt_spec K M hF hprop hstr hs hw h
  | table input =>
    obtain ⟨⟨s1, r⟩, h1, h2⟩ := Out.bind_eq_ok.1 h
    cases h2
    obtain ⟨n, hn⟩ := tableAt_spec K M hF strtod A hs.ctx.like h1
    obtain ⟨g1, g2⟩ : s1.ctx = s.session.ctx ∧ s1.funs = s.session.funs := by
      obtain ⟨w, rfl⟩ := CommandProps.tableExec_same h1
      exact ⟨rfl, rfl⟩
    refine ⟨⟨D, by rw [g1]; exact hs.ctx, by rw [g2]; exact hs.rules, hs.arity, hs.ids⟩, n + simpDepth s.simp,
      fun deep hd base sm hm => ?_⟩
    obtain ⟨hf, g, S, o1, o2⟩ := hm
    have o1' := (owns_simp hf).1 o1
    obtain ⟨ms, e1, e2⟩ := readSimp_spec hf o1' (m := sm.session.mem)
      (fun a ha => o2.keeps.old a fun hS => ha (o2.keeps.new a hS)) (show _ ≤ deep by omega)
    obtain ⟨m', e3, e4⟩ := hn deep (by omega) sm.session.funs S ms sm.session.mem o2.keeps.owned (keeps_storedSimp o2.keeps e2)
    have hsm : sm.session = ⟨s.session.ctx, sm.session.funs, s.session.hist, sm.session.mem⟩ := by
      rw [← o2.ctx, ← o2.hist]
    rw [← hsm] at e3
    refine ⟨⟨{ sm.session with hist := s1.hist, mem := m' }, sm.simp⟩, by simp [Machine.entryAt, e1, e3], hf, g, S, o1, ?_, rfl, ?_⟩
    · exact o2.ctx.trans g1.symm
    · simp only [g2, e4]; exact o2.keeps

theorem entriesAt_spec (M : Malloc V) {F : Finder V} {prop : Ctx} (hprop : propCtx = .ok prop) {strtod : Str → Option V}
    (hstr : ∀ tok ∈ patternToks, strtod tok = none) (A : Stepping V) : ∀ {xs : List (Machine V ε × Entry)} {s s' : ValueProgram V}
    {D : List (FunDef V)}, Sess s.session D → (∀ x ∈ xs, Finds x.1.dbl.eq F ∧ WellFormedEntry prop strtod x.2) →
    entriesOn prop strtod A s xs = .ok s' →
    (∃ D', Sess s'.session D') ∧ ∃ n, ∀ deep ≥ n, ∀ base sm, ProgramInMemory base s sm →
      ∃ sm', entriesAt M F deep prop strtod A sm xs = .ok sm' ∧ ProgramInMemory base s' sm'
  | [], s, s', D, hs, _, h => by
    cases h
    exact ⟨⟨D, hs⟩, 0, fun deep _ base sm hm => ⟨sm, rfl, hm⟩⟩
  | (K, i) :: xs, s, s', D, hs, hx, h => by
    obtain ⟨s1, h1, h2⟩ := Out.bind_eq_ok.1 h
    obtain ⟨hK, hw⟩ := hx (K, i) (by simp)
    obtain ⟨⟨D1, hs1⟩, n1, k1⟩ := entryAt_spec K M hK hprop hstr A hs hw h1
    obtain ⟨hs2, n2, k2⟩ := entriesAt_spec M hprop hstr A hs1 (fun x hx' => hx x (by simp [hx'])) h2
    refine ⟨hs2, n1 + n2, fun deep hd base sm hm => ?_⟩
    obtain ⟨sm1, e1, e2⟩ := k1 deep (by omega) base sm hm
    obtain ⟨sm2, e3, e4⟩ := k2 deep (by omega) base sm1 e2
    exact ⟨sm2, by simp [entriesAt, e1, e3], e4⟩

end Verif
