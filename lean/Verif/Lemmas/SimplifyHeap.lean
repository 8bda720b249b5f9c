import Verif.Model.SimplifyHeap
import Verif.Lemmas.NodeHeapRules

/-!
# Lemmas on the evaluation of an input in memory
-/

namespace Verif
open OwnershipSpec
variable {V ε : Type}

/-! ## replace_negative_consts -/

theorem replaceNeg_loop (D : Doubles V) (ts : List (Tree V)) :
    loopResult (fun c => (replaceNegConsts D c, (none : Option Empty))) ts = (replaceNegConstsList D ts, none) := by
  induction ts with
  | nil => rfl
  | cons c ts ih => simp only [loopResult, replaceNegConstsList, ih]

theorem replaceNegAt_spec (M : Malloc V) (D : Doubles V) {m0 : Mem V} {U W : Nat → Prop} (t : Tree V) :
    ∀ {m : Mem V} {slot : Slot} {S : List Nat} {fuel : Nat}, At m slot t S → Safe m0 U W m slot S →
    calls t < fuel →
    ∃ m' T, replaceNegAt M D fuel m slot = .ok (none, m') ∧ Trade m slot S (replaceNegConsts D t) T m' := by
  induction t using Tree.induct with
  | hv x k i =>
    intro m slot S fuel h _ hf
    cases fuel with
    | zero => simp at hf
    | succ n =>
      refine ⟨m, S, ?_, by simpa [replaceNegConsts] using Trade.refl h⟩
      obtain ⟨p, h1, ⟨h2, _⟩, _⟩ := h
      simp [replaceNegAt, h1, Mem.load, h2]
  | hc v i =>
    intro m slot S fuel h hs hf
    cases fuel with
    | zero => simp at hf
    | succ n =>
      have h' := h
      obtain ⟨p, h1, ⟨h2, _⟩, _⟩ := h'
      by_cases hlt : D.lt v (D.ofNat 0) = true
      · generalize ha : m.alloc M (.op negOp [none] i) = a
        have fa : m.get a.1 = none := by rw [← ha]; exact Mem.alloc_fresh ..
        have ga : ∀ b, a.2.get b = if b = a.1 then some (.op negOp [none] i) else m.get b := by
          intro b; rw [← ha]; exact Mem.get_alloc ..
        have va : a.2.vars = m.vars := by rw [← ha]; rfl
        generalize hb : a.2.alloc M (.const (D.fabs v) i) = b
        have fb : a.2.get b.1 = none := by rw [← hb]; exact Mem.alloc_fresh ..
        have gb : ∀ c, b.2.get c = if c = b.1 then some (.const (D.fabs v) i) else a.2.get c := by
          intro b; rw [← hb]; exact Mem.get_alloc ..
        have vb : b.2.vars = m.vars := by rw [← hb, ← va]; rfl
        have hne : a.1 ≠ b.1 := by
          intro e
          rw [← e, ga, if_pos rfl] at fb
          cases fb
        have hba : b.2.get a.1 = some (.op negOp [none] i) := by rw [gb, if_neg hne, ga, if_pos rfl]
        have hmb : m.get b.1 = none := by
          rw [ga, if_neg (fun e => hne e.symm)] at fb
          exact fb
        have hset : b.2.setChild a.1 0 (some b.1) = .ok (b.2.put a.1 (.op negOp [some b.1] i)) := by
          simp [Mem.setChild, hba]
        generalize hc : b.2.put a.1 (.op negOp [some b.1] i) = m1 at hset
        have g1 : ∀ c, m1.get c = if c = a.1 then some (.op negOp [some b.1] i) else b.2.get c := by
          intro c; rw [← hc]; exact Mem.get_put _ hba _ c
        have v1 : m1.vars = m.vars := by rw [← hc, ← vb]; rfl
        obtain ⟨m', e1, e2⟩ := replaceTree_new (mA := m1) (u := .op negOp [.const (D.fabs v) i] i)
          (q := a.1) (T := [a.1, b.1]) (fuel := n) h
          ⟨[b.1], [b.1], by rw [g1, if_pos rfl]; rfl,
            ⟨b.1, [], [b.1], [], rfl, rfl, ⟨by rw [g1, if_neg (fun e => hne e.symm), gb, if_pos rfl], rfl⟩,
              ⟨rfl, rfl⟩⟩, rfl⟩
          (by simp [hne]) (by simp [fa, hmb])
          (fun c hc => by
            simp only [List.mem_cons, List.not_mem_nil, or_false, not_or] at hc
            rw [g1, if_neg hc.1, gb, if_neg hc.2, ga, if_neg hc.1]) v1 (by omega)
        refine ⟨m', _, ?_, by simpa [replaceNegConsts, hlt] using e2⟩
        simp [replaceNegAt, h1, Mem.load, h2, hlt, ha, hb, hset, e1]
      · refine ⟨m, S, ?_, by simpa [replaceNegConsts, hlt] using Trade.refl h⟩
        simp [replaceNegAt, h1, Mem.load, h2, hlt]
  | ho o cs i ih =>
    intro m slot S fuel h hs hf
    cases fuel with
    | zero => simp at hf
    | succ n =>
      simp only [calls] at hf
      obtain ⟨m', T, e1, e2⟩ := childLoop_spec (n := n) (ds := [])
        (f := replaceNegAt M D n)
        (F := fun c => (replaceNegConsts D c, (none : Option Empty))) (ts := cs)
        (fun c hc m sl S hA hS => ih c hc hA hS (by have := callsAll_mem hc; omega))
        (by simpa using h) hs (by have := callsAll_length cs; omega)
      rw [replaceNeg_loop] at e1 e2
      refine ⟨m', T, ?_, by simpa [replaceNegConsts] using e2⟩
      obtain ⟨p, h1, ⟨ps, _, h2, _⟩, _⟩ := h
      simp only [List.length_nil] at e1
      simp [replaceNegAt, h1, Mem.load, h2, e1]

/-! ## find_op -/

mutual
theorem findOpAt_spec (id : Nat) : ∀ {t : Tree V} {m : Mem V} {slot : Slot} {p : Nat} {S : List Nat} {n : Nat}
    (q : Path), m.deref slot = .ok (some p) → Holds m.get t p S → calls t ≤ n →
    ∃ r, findOpAt id n m slot = .ok r ∧ r.isSome = (findOpNode id t q).isSome
  | .const v i, m, slot, p, S, n, q, hd, ⟨h1, _⟩, hf => by
    cases n with
    | zero => simp [calls] at hf
    | succ n => exact ⟨none, by simp [findOpAt, hd, h1], by simp [findOpNode]⟩
  | .var x k i, m, slot, p, S, n, q, hd, ⟨h1, _⟩, hf => by
    cases n with
    | zero => simp [calls] at hf
    | succ n => exact ⟨none, by simp [findOpAt, hd, h1], by simp [findOpNode]⟩
  | .op o cs i, m, slot, p, S, n, q, hd, ⟨ps, T, h1, h2, _⟩, hf => by
    cases n with
    | zero => simp [calls] at hf
    | succ n =>
      by_cases ho : o.id = id
      · exact ⟨some slot, by simp [findOpAt, hd, h1, ho], by simp [findOpNode, ho]⟩
      · obtain ⟨r, e1, e2⟩ := findOpChildren_spec id (pre := []) (n := n) q h2 h1 (by simp [calls] at hf; omega)
        exact ⟨r, by simpa [findOpAt, hd, h1, ho] using e1, by simpa [findOpNode, ho] using e2⟩
theorem findOpChildren_spec (id : Nat) : ∀ {ts : List (Tree V)} {m : Mem V} {p : Nat} {ps T : List Nat}
    {pre : List (Option Nat)} {o : Op} {i n : Nat} (q : Path), HoldsAll m.get ts ps T →
    m.get p = some (.op o (pre ++ ps.map some) i) → callsAll ts ≤ n →
    ∃ r, findOpChildren id n m p pre.length = .ok r ∧ r.isSome = (findOpNodes id ts q pre.length).isSome
  | [], m, p, ps, T, pre, o, i, n, q, h, hp, hf => by
    obtain ⟨rfl, rfl⟩ := h
    cases n with
    | zero => simp [callsAll] at hf
    | succ n => exact ⟨none, by simp [findOpChildren, hp], by simp [findOpNodes]⟩
  | c :: cs, m, p, ps, T, pre, o, i, n, q, ⟨a, as, S1, S2, h1, h2, h3, h4⟩, hp, hf => by
    cases n with
    | zero => simp [callsAll] at hf
    | succ n =>
      subst h1 h2
      simp only [callsAll] at hf
      obtain ⟨r, e1, e2⟩ := findOpAt_spec id (slot := .child p pre.length) (n := n) (q ++ [pre.length])
        (by simp [Mem.deref, Mem.child, hp]) h3 (by omega)
      cases hr : findOpNode id c (q ++ [pre.length]) with
      | some w =>
        rw [hr] at e2
        cases r with
        | none => simp at e2
        | some s => exact ⟨some s, by simp [findOpChildren, hp, e1], by simp [findOpNodes, hr]⟩
      | none =>
        rw [hr] at e2
        cases r with
        | some s => simp at e2
        | none =>
          obtain ⟨r', f1, f2⟩ := findOpChildren_spec id (pre := pre ++ [some a]) (n := n) (o := o) (i := i) q h4
            (by rw [hp]; simp) (by omega)
          simp only [List.length_append, List.length_singleton] at f1 f2
          exact ⟨r', by simpa [findOpChildren, hp, e1] using f1, by simpa [findOpNodes, hr] using f2⟩
end

/-! ## list_variables -/

/-- Nodes with children stay as they are, and so do all variables. -/
structure Rigid (m m' : Mem V) : Prop where
  op : ∀ a o cs i, m.get a = some (.op o cs i) → m'.get a = some (.op o cs i)
  vars : m'.vars = m.vars

theorem Rigid.refl (m : Mem V) : Rigid m m := ⟨fun _ _ _ _ h => h, rfl⟩

theorem Rigid.trans {m m' m'' : Mem V} (h : Rigid m m') (k : Rigid m' m'') : Rigid m m'' :=
  ⟨fun a o cs i e => k.op a o cs i (h.op a o cs i e), k.vars.trans h.vars⟩

theorem Rigid.deref {m m' : Mem V} (h : Rigid m m') {slot : Slot} {p : Option Nat}
    (e : m.deref slot = .ok p) : m'.deref slot = .ok p := by
  cases slot with
  | var x => simpa [Mem.deref, h.vars] using e
  | child a k =>
    obtain ⟨o, cs, i, h1, h2⟩ := Mem.deref_child e
    simp [Mem.deref, Mem.child, h.op _ _ _ _ h1, h2]

theorem Rigid.place {m m' : Mem V} (h : Rigid m m') : ∀ {path : Path} {slot sl : Slot},
    PlaceOf m slot path sl → PlaceOf m' slot path sl
  | [], _, _, e => e
  | _ :: _, _, _, ⟨q, e1, e2⟩ => ⟨q, h.deref e1, h.place e2⟩

mutual
theorem listVarsAt_spec (buf : Nat) : ∀ {t : Tree V} {m : Mem V} {p : Nat} {S : List Nat} {n : Nat}
    {vs : List Str} {ok : Bool}, Holds m.get t p S → S.Nodup → calls t ≤ n →
    ∃ m', listVarsAt buf n m (some p) vs ok = .ok (m', (listVarsRec buf t vs ok).2) ∧
      Holds m'.get (listVarsRec buf t vs ok).1 p S ∧ (∀ a, a ∉ S → m'.get a = m.get a) ∧ Rigid m m'
  | .const v i, m, p, S, n, vs, ok, h, _, hf => by
    cases n with
    | zero => simp [calls] at hf
    | succ n =>
      refine ⟨m, ?_, by simpa [listVarsRec] using h, fun _ _ => rfl, Rigid.refl m⟩
      cases ok <;> simp [listVarsAt, listVarsRec, h.1]
  | .var x y i, m, p, S, n, vs, ok, h, _, hf => by
    cases n with
    | zero => simp [calls] at hf
    | succ n =>
      have key : ∀ k, Holds (m.put p (.var x k i)).get (.var x k i) p S ∧
          (∀ a, a ∉ S → (m.put p (.var x k i)).get a = m.get a) ∧ Rigid m (m.put p (.var x k i)) := by
        intro k
        have hg := Mem.get_put m h.1 (.var x k i)
        refine ⟨⟨by simp [hg], h.2⟩, fun a ha => ?_, ⟨fun a o cs j e => ?_, rfl⟩⟩
        · rw [hg, if_neg (fun e => ha (by simp [h.2, e]))]
        · rw [hg, if_neg (fun (e' : a = p) => by rw [e', h.1] at e; cases e), e]
      cases ok with
      | false =>
        exact ⟨m, by simp [listVarsAt, listVarsRec], by simpa [listVarsRec] using h, fun _ _ => rfl, Rigid.refl m⟩
      | true =>
        cases hk : vs.idxOf? x with
        | some k =>
          refine ⟨m.put p (.var x k i), by simp [listVarsAt, listVarsRec, h.1, hk], ?_⟩
          simpa [listVarsRec, hk] using key k
        | none =>
          by_cases hb : vs.length < buf
          · refine ⟨m.put p (.var x vs.length i), by simp [listVarsAt, listVarsRec, h.1, hk, hb], ?_⟩
            simpa [listVarsRec, hk, hb] using key vs.length
          · exact ⟨m, by simp [listVarsAt, listVarsRec, h.1, hk, hb], by simpa [listVarsRec, hk, hb] using h,
              fun _ _ => rfl, Rigid.refl m⟩
  | .op o cs i, m, p, S, n, vs, ok, h, hn, hf => by
    cases n with
    | zero => simp [calls] at hf
    | succ n =>
      cases ok with
      | false =>
        exact ⟨m, by simp [listVarsAt, listVarsRec], by simpa [listVarsRec] using h, fun _ _ => rfl, Rigid.refl m⟩
      | true =>
        obtain ⟨ps, T, h1, h2, h3⟩ := h
        rw [h3, List.nodup_cons] at hn
        obtain ⟨m', e1, e2, e3, e4⟩ := listVarsChildren_spec buf (n := n) (pre := []) (p := p) (vs := vs)
          (ok := true) h2 hn.2 h1 hn.1 (by simp only [calls] at hf; omega)
        refine ⟨m', by simpa [listVarsAt, h1, listVarsRec] using e1,
          ⟨ps, T, e4.op _ _ _ _ h1, by simpa [listVarsRec] using e2, h3⟩, ?_, e4⟩
        intro a ha
        simp only [h3, List.mem_cons, not_or] at ha
        exact e3 a ha.2
theorem listVarsChildren_spec (buf : Nat) : ∀ {ts : List (Tree V)} {m : Mem V} {p : Nat} {ps S : List Nat}
    {pre : List (Option Nat)} {o : Op} {i n : Nat} {vs : List Str} {ok : Bool},
    HoldsAll m.get ts ps S → S.Nodup → m.get p = some (.op o (pre ++ ps.map some) i) → p ∉ S →
    callsAll ts ≤ n →
    ∃ m', listVarsChildren buf n m p pre.length vs ok = .ok (m', (listVarsRecs buf ts vs ok).2) ∧
      HoldsAll m'.get (listVarsRecs buf ts vs ok).1 ps S ∧ (∀ a, a ∉ S → m'.get a = m.get a) ∧ Rigid m m'
  | [], m, p, ps, S, pre, o, i, n, vs, ok, h, _, hp, _, hf => by
    obtain ⟨rfl, rfl⟩ := h
    cases n with
    | zero => simp [callsAll] at hf
    | succ n =>
      exact ⟨m, by simp [listVarsChildren, hp, listVarsRecs], ⟨rfl, rfl⟩, fun _ _ => rfl, Rigid.refl m⟩
  | c :: cs, m, p, ps, S, pre, o, i, n, vs, ok, ⟨q, qs, S1, S2, h1, h2, h3, h4⟩, hn, hp, hpS, hf => by
    cases n with
    | zero => simp [callsAll] at hf
    | succ n =>
      subst h1 h2
      rw [List.nodup_append] at hn
      simp only [List.mem_append, not_or] at hpS
      simp only [callsAll] at hf
      obtain ⟨m1, e1, e2, e3, e4⟩ := listVarsAt_spec buf (n := n) (vs := vs) (ok := ok) h3 hn.1 (by omega)
      obtain ⟨m2, f1, f2, f3, f4⟩ := listVarsChildren_spec buf (n := n) (pre := pre ++ [some q]) (p := p)
        (o := o) (i := i) (vs := (listVarsRec buf c vs ok).2.1) (ok := (listVarsRec buf c vs ok).2.2)
        (h4.congr fun a ha => e3 a (fun h => hn.2.2 a h a ha rfl)) hn.2.1
        (by rw [e3 p hpS.1, hp]; simp) hpS.2 (by omega)
      simp only [List.length_append, List.length_singleton] at f1
      refine ⟨m2, by simp [listVarsChildren, hp, e1, f1, listVarsRecs],
        ⟨q, qs, S1, S2, rfl, rfl, e2.congr fun a ha => f3 a (fun h => hn.2.2 a ha a h rfl), f2⟩, ?_,
        e4.trans f4⟩
      intro a ha
      simp only [List.mem_append, not_or] at ha
      rw [f3 a ha.2, e3 a ha.1]
end

end Verif
