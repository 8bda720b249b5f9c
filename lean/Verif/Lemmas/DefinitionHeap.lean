import Verif.Lemmas.SimplifyHeapFull
import Verif.Spec.MemorySession

/-!
# Lemmas on definitions in memory
-/

namespace Verif
open MemorySpec
variable {V ε : Type}

/-! ## Reading -/

mutual
theorem readTree_spec : ∀ {t : Tree V} {m : Mem V} {p : Nat} {S : List Nat} {fuel : Nat},
    OwnershipSpec.Holds m.get t p S → calls t ≤ fuel → readTree fuel m (some p) = .ok t
  | .const v i, m, p, S, fuel, ⟨h1, _⟩, hf => by
    cases fuel with
    | zero => simp [calls] at hf
    | succ n => simp [readTree, Mem.load, h1]
  | .var x k i, m, p, S, fuel, ⟨h1, _⟩, hf => by
    cases fuel with
    | zero => simp [calls] at hf
    | succ n => simp [readTree, Mem.load, h1]
  | .op o cs i, m, p, S, fuel, ⟨ps, T, h1, h2, _⟩, hf => by
    cases fuel with
    | zero => simp [calls] at hf
    | succ n =>
      simp [readTree, Mem.load, h1, readTrees_spec (n := n) h2 (by simp [calls] at hf; omega)]
theorem readTrees_spec : ∀ {ts : List (Tree V)} {m : Mem V} {ps S : List Nat} {n : Nat},
    OwnershipSpec.HoldsAll m.get ts ps S → callsAll ts ≤ n → readTrees n m (ps.map some) = .ok ts
  | [], m, ps, S, n, h, hf => by
    obtain ⟨rfl, _⟩ := h
    cases n with
    | zero => simp [callsAll] at hf
    | succ n => simp [readTrees]
  | c :: ts, m, _, S, n, ⟨p, qs, S1, S2, rfl, _, h3, h4⟩, hf => by
    cases n with
    | zero => simp [callsAll] at hf
    | succ n =>
      simp only [callsAll] at hf
      simp [readTrees, readTree_spec (fuel := n) h3 (by omega), readTrees_spec (n := n) h4 (by omega)]
end

mutual
theorem countNamed_spec (name : Str) : ∀ {t : Tree V} {m : Mem V} {p : Nat} {S : List Nat} {fuel : Nat}
    (path : Path) (pos : Nat),
    OwnershipSpec.Holds m.get t p S → calls t ≤ fuel →
    countNamed name fuel m (some p) = .ok (varNodes name t path 0 pos).1
  | .const v i, m, p, S, fuel, path, pos, ⟨h1, _⟩, hf => by
    cases fuel with
    | zero => simp [calls] at hf
    | succ n => simp [countNamed, Mem.load, h1, varNodes]
  | .var x k i, m, p, S, fuel, path, pos, ⟨h1, _⟩, hf => by
    cases fuel with
    | zero => simp [calls] at hf
    | succ n => simp only [countNamed, Mem.load, h1, varNodes, Out.bind_ok, Out.pure_eq]; split <;> rfl
  | .op o cs i, m, p, S, fuel, path, pos, ⟨ps, T, h1, h2, _⟩, hf => by
    cases fuel with
    | zero => simp [calls] at hf
    | succ n =>
      simp [countNamed, Mem.load, h1, varNodes,
        countNamedList_spec name (n := n) path 0 pos h2 (by simp [calls] at hf; omega)]
theorem countNamedList_spec (name : Str) : ∀ {ts : List (Tree V)} {m : Mem V} {ps S : List Nat} {n : Nat}
    (path : Path) (k pos : Nat),
    OwnershipSpec.HoldsAll m.get ts ps S → callsAll ts ≤ n →
    countNamedList name n m (ps.map some) = .ok (varNodesList name ts path k 0 pos).1
  | [], m, ps, S, n, path, k, pos, h, hf => by
    obtain ⟨rfl, _⟩ := h
    cases n with
    | zero => simp [callsAll] at hf
    | succ n => simp [countNamedList, varNodesList]
  | c :: ts, m, _, S, n, path, k, pos, ⟨p, qs, S1, S2, rfl, _, h3, h4⟩, hf => by
    cases n with
    | zero => simp [callsAll] at hf
    | succ n =>
      simp only [callsAll] at hf
      simp [countNamedList, varNodesList, countNamed_spec name (fuel := n) (path ++ [k]) pos h3 (by omega),
        countNamedList_spec name (n := n) path (k + 1) (pos + (varNodes name c (path ++ [k]) 0 pos).1) h4
          (by omega)]
end

theorem allNamedAt_spec {t : Tree V} {m : Mem V} {p : Nat} {S : List Nat} {deep : Nat}
    (h : OwnershipSpec.Holds m.get t p S) (hd : calls t ≤ deep) (vs : List Str) :
    allNamedAt deep m (some p) vs = .ok (vs.all fun n => occurs n t) := by
  induction vs with
  | nil => rfl
  | cons v vs ih =>
    simp only [allNamedAt, countNamed_spec v [] 0 h hd, Out.bind_ok, List.all_cons, occurs]
    by_cases e : (varNodes v t [] 0 0).1 = 0
    · simp [e]
    · simp only [e, if_false, ih]
      simp [e, occurs]

/-! ## Writing ids -/

mutual
theorem copyIdsAt_spec (vars : List Str) : ∀ {t : Tree V} {m : Mem V} {p : Nat} {S : List Nat} {n : Nat},
    OwnershipSpec.Holds m.get t p S → S.Nodup → calls t ≤ n →
    ∃ m', copyIdsAt vars n m (some p) = .ok m' ∧ OwnershipSpec.Holds m'.get (copyIds vars t) p S ∧
      (∀ a, a ∉ S → m'.get a = m.get a) ∧ Rigid m m'
  | .const v i, m, p, S, n, h, _, hf => by
    cases n with
    | zero => simp [calls] at hf
    | succ n =>
      exact ⟨m, by simp [copyIdsAt, h.1], by simpa [copyIds] using h, fun _ _ => rfl, Rigid.refl m⟩
  | .var x y i, m, p, S, n, h, _, hf => by
    cases n with
    | zero => simp [calls] at hf
    | succ n =>
      cases hk : vars.idxOf? x with
      | none =>
        exact ⟨m, by simp [copyIdsAt, h.1, hk], by simpa [copyIds, hk] using h, fun _ _ => rfl, Rigid.refl m⟩
      | some k =>
        have hg := Mem.get_put m h.1 (.var x k i)
        refine ⟨m.put p (.var x k i), by simp [copyIdsAt, h.1, hk], ?_, fun a ha => ?_, ⟨fun a o cs j e => ?_, rfl⟩⟩
        · simp only [copyIds, hk]
          exact ⟨by simp [hg], h.2⟩
        · rw [hg, if_neg (fun e => ha (by simp [h.2, e]))]
        · rw [hg, if_neg (fun (e' : a = p) => by rw [e', h.1] at e; cases e), e]
  | .op o cs i, m, p, S, n, h, hn, hf => by
    cases n with
    | zero => simp [calls] at hf
    | succ n =>
      obtain ⟨ps, T, h1, h2, h3⟩ := h
      rw [h3, List.nodup_cons] at hn
      obtain ⟨m', e1, e2, e3, e4⟩ := copyIdsChildren_spec vars (n := n) (pre := []) (p := p) (o := o) (i := i)
        h2 hn.2 (by simpa using h1) hn.1 (by simp [calls] at hf; omega)
      simp only [List.length_nil] at e1
      refine ⟨m', by simp [copyIdsAt, h1, e1], ⟨ps, T, e4.op _ _ _ _ h1, e2, h3⟩, fun a ha => e3 a ?_, e4⟩
      intro h
      exact ha (by simp [h3, h])
theorem copyIdsChildren_spec (vars : List Str) : ∀ {ts : List (Tree V)} {m : Mem V} {p : Nat} {ps S : List Nat}
    {pre : List (Option Nat)} {o : Op} {i n : Nat},
    OwnershipSpec.HoldsAll m.get ts ps S → S.Nodup → m.get p = some (.op o (pre ++ ps.map some) i) → p ∉ S →
    callsAll ts ≤ n →
    ∃ m', copyIdsChildren vars n m p pre.length = .ok m' ∧
      OwnershipSpec.HoldsAll m'.get (copyIdsList vars ts) ps S ∧ (∀ a, a ∉ S → m'.get a = m.get a) ∧ Rigid m m'
  | [], m, p, ps, S, pre, o, i, n, h, _, hp, _, hf => by
    obtain ⟨rfl, rfl⟩ := h
    cases n with
    | zero => simp [callsAll] at hf
    | succ n =>
      exact ⟨m, by simp [copyIdsChildren, hp], ⟨rfl, rfl⟩, fun _ _ => rfl, Rigid.refl m⟩
  | c :: ts, m, p, _, _, pre, o, i, n, ⟨q, qs, S1, S2, rfl, rfl, h3, h4⟩, hn, hp, hpS, hf => by
    cases n with
    | zero => simp [callsAll] at hf
    | succ n =>
      simp only [callsAll] at hf
      rw [List.nodup_append] at hn
      simp only [List.mem_append, not_or] at hpS
      obtain ⟨m1, e1, e2, e3, e4⟩ := copyIdsAt_spec vars (n := n) h3 hn.1 (by omega)
      obtain ⟨m2, f1, f2, f3, f4⟩ := copyIdsChildren_spec vars (n := n) (pre := pre ++ [some q]) (p := p)
        (o := o) (i := i) (h4.congr fun a ha => e3 a (fun h => hn.2.2 a h a ha rfl)) hn.2.1
        (by rw [e3 p hpS.1, hp]; simp) hpS.2 (by omega)
      simp only [List.length_append, List.length_singleton] at f1
      refine ⟨m2, by simp [copyIdsChildren, hp, e1, f1],
        ⟨q, qs, S1, S2, rfl, rfl, e2.congr fun a ha => f3 a (fun h => hn.2.2 a ha a h rfl), f2⟩, ?_, e4.trans f4⟩
      intro a ha
      simp only [List.mem_append, not_or] at ha
      rw [f3 a ha.2, e3 a ha.1]
end

/-! ## Two trees -/

/-- The trees `l` and `r` at `a` and `b`, in a memory that otherwise is `g`. -/
structure Pair (g : Nat → Option (Cell V)) (l r : Tree V) (m : Mem V) (a b : Nat) (P R : List Nat) : Prop where
  left : OwnershipSpec.Holds m.get l a P
  right : OwnershipSpec.Holds m.get r b R
  nodup : (P ++ R).Nodup
  new : ∀ z ∈ P ++ R, g z = none
  old : ∀ z, z ∉ P ++ R → m.get z = g z

theorem Pair.onLeft {g : Nat → Option (Cell V)} {l l' r : Tree V} {m m' : Mem V} {a b : Nat} {P R : List Nat}
    (h : Pair g l r m a b P R) (h1 : OwnershipSpec.Holds m'.get l' a P) (h2 : ∀ z, z ∉ P → m'.get z = m.get z) :
    Pair g l' r m' a b P R := by
  have hn := List.nodup_append.mp h.nodup
  refine ⟨h1, h.right.congr fun z hz => h2 z (fun hp => hn.2.2 z hp z hz rfl), h.nodup, h.new, fun z hz => ?_⟩
  rw [h2 z (fun hp => hz (by simp [hp])), h.old z hz]

theorem Pair.onRight {g : Nat → Option (Cell V)} {l r r' : Tree V} {m m' : Mem V} {a b : Nat} {P R : List Nat}
    (h : Pair g l r m a b P R) (h1 : OwnershipSpec.Holds m'.get r' b R) (h2 : ∀ z, z ∉ R → m'.get z = m.get z) :
    Pair g l r' m' a b P R := by
  have hn := List.nodup_append.mp h.nodup
  refine ⟨h.left.congr fun z hz => h2 z (fun hp => hn.2.2 z hz z hp rfl), h1, h.nodup, h.new, fun z hz => ?_⟩
  rw [h2 z (fun hp => hz (by simp [hp])), h.old z hz]

/-- Freeing both leaves the rest. -/
theorem Pair.freed {g : Nat → Option (Cell V)} {l r : Tree V} {m : Mem V} {a b : Nat} {P R : List Nat}
    (h : Pair g l r m a b P R) {deep : Nat} (hl : calls l ≤ deep) (hr : calls r ≤ deep) :
    ∃ m1 m2, freeTree deep m (some a) = .ok m1 ∧ freeTree deep m1 (some b) = .ok m2 ∧ m2.get = g ∧
      m1.vars = m.vars ∧ m2.vars = m.vars := by
  have hn := List.nodup_append.mp h.nodup
  obtain ⟨m1, e1, e2, e3⟩ := freeTree_spec h.left hn.1 hl
  have hr' : OwnershipSpec.Holds m1.get r b R := h.right.congr fun z hz => by
    rw [e2 z, if_neg fun hp => hn.2.2 z hp z hz rfl]
  obtain ⟨m2, f1, f2, f3⟩ := freeTree_spec hr' hn.2.1 hr
  refine ⟨m1, m2, e1, f1, ?_, e3, f3.trans e3⟩
  funext z
  rw [f2 z]
  by_cases hz : z ∈ R
  · rw [if_pos hz, h.new z (by simp [hz])]
  · rw [if_neg hz, e2 z]
    by_cases hp : z ∈ P
    · rw [if_pos hp, h.new z (by simp [hp])]
    · rw [if_neg hp, h.old z (by simp [hz, hp])]

theorem Pair.list {g : Nat → Option (Cell V)} {l r : Tree V} {m : Mem V} {a b : Nat} {P R : List Nat}
    (h : Pair g l r m a b P R) {deep : Nat} (hl : calls l ≤ deep) :
    ∃ m', listVarsAt maxMappedVars deep m (some a) [] true = .ok (m', (listVarsRec maxMappedVars l [] true).2) ∧
      Pair g (listVariables maxMappedVars l).tree r m' a b P R ∧ m'.vars = m.vars := by
  have hn := List.nodup_append.mp h.nodup
  obtain ⟨m', e1, e2, e3, e4⟩ := listVarsAt_spec maxMappedVars (vs := []) (ok := true) h.left hn.1 hl
  rw [listVarsRec_tree] at e2
  exact ⟨m', e1, h.onLeft e2 e3, e4.vars⟩

mutual
theorem calls_listVars (buf : Nat) : ∀ (t : Tree V) (vs : List Str) (ok : Bool),
    calls (listVarsRec buf t vs ok).1 = calls t
  | .const v i, vs, ok => by simp [listVarsRec, calls]
  | .var x y i, vs, ok => by
    simp only [listVarsRec]
    split
    · split
      · simp [calls]
      · split <;> simp [calls]
    · simp [calls]
  | .op o cs i, vs, ok => by
    simp only [listVarsRec]
    split
    · simp only [calls, callsAll_listVars buf cs vs true]
    · rfl
theorem callsAll_listVars (buf : Nat) : ∀ (ts : List (Tree V)) (vs : List Str) (ok : Bool),
    callsAll (listVarsRecs buf ts vs ok).1 = callsAll ts
  | [], vs, ok => by simp [listVarsRecs, callsAll]
  | c :: ts, vs, ok => by
    simp only [listVarsRecs, callsAll, calls_listVars buf c vs ok, callsAll_listVars buf ts]
end

theorem calls_listVariables (buf : Nat) (t : Tree V) : calls (listVariables buf t).tree = calls t := by
  rw [← listVarsRec_tree, calls_listVars]

theorem listVarsRec_ok (buf : Nat) (t : Tree V) :
    (listVarsRec buf t [] true).2.2 = (listVariables buf t).sufficient := by
  unfold listVariables
  rcases listVarsRec buf t [] true with ⟨t', vs, _ | _⟩ <;> rfl

/-- The end of `get_rule`. -/
theorem finishRule_spec {g : Nat → Option (Cell V)} {l r : Tree V} {m : Mem V} {a b : Nat} {P R : List Nat}
    (h : Pair g l r m a b P R) {deep : Nat} (hl : calls l ≤ deep) (hr : calls r ≤ deep) :
    ∃ m', finishRuleAt deep m (some a) (some b) = .ok (true, m') ∧
      Pair g (listVariables maxMappedVars l).tree (copyIds (listVariables maxMappedVars l).vars r) m' a b P R ∧
      m'.vars = m.vars := by
  obtain ⟨m1, e1, e2, e3⟩ := h.list hl
  have hn := List.nodup_append.mp h.nodup
  obtain ⟨m2, f1, f2, f3, f4⟩ := copyIdsAt_spec (listVariables maxMappedVars l).vars e2.right hn.2.1 hr
  refine ⟨m2, ?_, e2.onRight f2 f3, f4.vars.trans e3⟩
  simp [finishRuleAt, e1, listVarsRec_vars, f1]

/-- `get_rule`. -/
theorem getRuleAt_spec {g : Nat → Option (Cell V)} {l r : Tree V} {m : Mem V} {a b : Nat} {P R : List Nat}
    (h : Pair g l r m a b P R) {deep : Nat} (hl : calls l ≤ deep) (hr : calls r ≤ deep)
    (cs : Nat → List (Tree V)) :
    (∀ rule, getRule ⟨l, cs⟩ r = some rule → ∃ m', getRuleAt deep m (some a) (some b) = .ok (true, m') ∧
      Pair g rule.pattern.tree rule.after m' a b P R ∧ rule.pattern.constraints = cs ∧ m'.vars = m.vars) ∧
    (getRule ⟨l, cs⟩ r = none → ∃ m' l' r', getRuleAt deep m (some a) (some b) = .ok (false, m') ∧
      Pair g l' r' m' a b P R ∧ calls l' ≤ deep ∧ calls r' ≤ deep ∧ m'.vars = m.vars) := by
  have hn := List.nodup_append.mp h.nodup
  have hc := countVariables_spec h.right hr
  by_cases h0 : countVars r = 0
  · obtain ⟨m', e1, e2, e3⟩ := finishRule_spec h hl hr
    refine ⟨fun rule hrule => ?_, fun hrule => ?_⟩
    · simp only [getRule, h0] at hrule
      simp at hrule
      subst hrule
      exact ⟨m', by simp [getRuleAt, hc, h0, e1], e2, rfl, e3⟩
    · simp [getRule, h0] at hrule
  · obtain ⟨m1, e1, e2, e3, e4⟩ := listVarsAt_spec maxMappedVars (vs := []) (ok := true) h.right hn.2.1 hr
    rw [listVarsRec_tree] at e2
    have hp1 := h.onRight e2 e3
    have hr1 : calls (listVariables maxMappedVars r).tree ≤ deep := by rw [calls_listVariables]; exact hr
    have hall := allNamedAt_spec hp1.left hl (listVariables maxMappedVars r).vars
    by_cases hs : (listVariables maxMappedVars r).sufficient = true
    · by_cases ha : (listVariables maxMappedVars r).vars.all (fun n => occurs n l) = true
      · obtain ⟨m', f1, f2, f3⟩ := finishRule_spec hp1 hl hr1
        refine ⟨fun rule hrule => ?_, fun hrule => ?_⟩
        · simp only [getRule, Nat.pos_of_ne_zero h0, hs, ha, if_true, Bool.and_self,
            Option.some.injEq] at hrule
          subst hrule
          refine ⟨m', ?_, f2, rfl, f3.trans e4.vars⟩
          simp [getRuleAt, hc, h0, e1, listVarsRec_ok, listVarsRec_vars, hs, hall, ha, f1]
        · simp [getRule, Nat.pos_of_ne_zero h0, hs] at hrule
          simp only [List.all_eq_true] at ha
          obtain ⟨n, h1, h2⟩ := hrule
          rw [ha n h1] at h2
          cases h2
      · refine ⟨fun rule hrule => ?_, fun _ => ⟨m1, _, _, ?_, hp1, hl, hr1, e4.vars⟩⟩
        · simp [getRule, Nat.pos_of_ne_zero h0, hs] at hrule
          exact absurd (List.all_eq_true.mpr hrule.1) ha
        · simp only [Bool.not_eq_true] at ha
          simp only [getRuleAt, hc, h0, e1, listVarsRec_ok, listVarsRec_vars, hs, hall, ha, Out.bind_ok,
            if_false, if_true, Out.pure_eq]
          rfl
    · refine ⟨fun rule hrule => ?_, fun _ => ⟨m1, _, _, ?_, hp1, hl, hr1, e4.vars⟩⟩
      · simp [getRule, Nat.pos_of_ne_zero h0, hs] at hrule
      · simp [getRuleAt, hc, h0, e1, listVarsRec_ok, hs]

end Verif
