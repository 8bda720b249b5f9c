import Verif.Lemmas.RuleHeap
import Verif.Lemmas.SimpInit

/-!
# Lemmas on reading rules into memory
-/

namespace Verif
open MemorySpec OwnershipProps OperandsSpec
variable {V ε : Type}

theorem Shallow.append {n : Nat} {L L' : List (Tree V × Nat)} (h : Shallow n L) (h' : Shallow n L') : Shallow n (L ++ L') := by
  intro x hx
  rcases List.mem_append.mp hx with hx | hx
  · exact h x hx
  · exact h' x hx

theorem Shallow.cons {n : Nat} {t : Tree V} {p : Nat} {L : List (Tree V × Nat)} (h : calls t ≤ n) (h' : Shallow n L) :
    Shallow n ((t, p) :: L) := by
  intro x hx
  rcases List.mem_cons.mp hx with rfl | hx
  · exact h
  · exact h' x hx

theorem Shallow.nil {n : Nat} : Shallow n ([] : List (Tree V × Nat)) := fun x hx => by simp at hx

theorem patternAt_spec {base : Nat → Option (Cell V)} {deep : Nat} {t : Tree V} {p : Nat} {C U : List (Tree V × Nat)}
    {m : Mem V} (h : OwnsP base ((t, p) :: (C ++ U)) m.get) (ht : calls t ≤ deep) (hC : Shallow deep C) :
    (∀ pat, getPattern t (C.map (·.1)) = .ok pat → ∃ q m' C', patternAt deep m p (C.map (·.2)) = .ok (some q, m') ∧
      OwnsP base ((pat.tree, p) :: (C' ++ U)) m'.get ∧ C'.map (·.2) = C.map (·.2) ∧ Shallow deep C' ∧ q.tree = p ∧
      (paired pat.constraints q.constraints).Perm C' ∧ FitsPattern pat q ∧ calls pat.tree = calls t) ∧
    (∀ e, getPattern t (C.map (·.1)) = .error e → ∃ m' t' C', patternAt deep m p (C.map (·.2)) = .ok (none, m') ∧
      OwnsP base ((t', p) :: (C' ++ U)) m'.get ∧ C'.map (·.2) = C.map (·.2) ∧ Shallow deep C' ∧ calls t' = calls t) := by
  obtain ⟨S, k1, k2, k3⟩ := h.change
  obtain ⟨m1, e1, e2, e3, -⟩ := listVarsAt_spec maxMappedVars (vs := []) (ok := true) k1 k2 ht
  rw [listVarsRec_tree] at e2
  have o1 := k3 _ m1 e2 e3
  have hcalls := calls_listVariables maxMappedVars t
  have ev : (listVarsRec maxMappedVars t [] true).2.1 = (listVariables maxMappedVars t).vars := listVarsRec_vars _ _
  have eo := listVarsRec_ok maxMappedVars t
  unfold getPattern patternAt
  simp only [e1, Out.bind_ok, eo, ev]
  by_cases hs : (listVariables maxMappedVars t).sufficient = true
  · simp only [hs, if_true]
    obtain ⟨i1, i2⟩ := addConstraintsAt_spec (base := base) (listVariables_len t) C (fun _ => []) (fun _ => [])
      (((listVariables maxMappedVars t).tree, p) :: U) m1 (o1.perm List.perm_middle.symm) hC (fun _ => rfl) (fun _ _ => rfl)
    cases hr : addConstraints (listVariables maxMappedVars t).vars (fun _ => []) (C.map (·.1)) with
    | none =>
      refine ⟨fun pat hp => (by cases hp), fun e _ => ?_⟩
      obtain ⟨m', C', f1, f2, f3, f4⟩ := i2 hr
      exact ⟨m', _, C', by simp [f1], f2.perm List.perm_middle, f3, f4, hcalls⟩
    | some r =>
      refine ⟨fun pat hp => ?_, fun e hp => (by cases hp)⟩
      cases hp
      obtain ⟨rm, m', C', f1, f2, f3, f4, f5, f6, f7⟩ := i1 r hr
      refine ⟨⟨p, rm⟩, m', C', by simp [f1], f2.perm List.perm_middle, f3, f4, rfl, ?_, ⟨f6, f7⟩, hcalls⟩
      refine f5.trans ?_
      have : paired (fun _ => ([] : List (Tree V))) (fun _ => ([] : List Nat)) = [] := by simp [paired]
      rw [this]
      exact .refl _
  · simp only [hs]
    refine ⟨fun pat hp => (by cases hp), fun e _ => ?_⟩
    exact ⟨m1, _, C, rfl, o1, rfl, hC, hcalls⟩

theorem freeMaybe_spec {base : Nat → Option (Cell V)} {deep : Nat} (h0 : 0 < deep) (lo : Option (Tree V × Nat))
    {L : List (Tree V × Nat)} {m : Mem V} (h : OwnsP base (lo.toList ++ L) m.get) (hl : Shallow deep lo.toList) :
    ∃ m', freeTree deep m (lo.map (·.2)) = .ok m' ∧ OwnsP base L m'.get := by
  cases lo with
  | none =>
    obtain ⟨n, rfl⟩ : ∃ n, deep = n + 1 := ⟨deep - 1, by omega⟩
    exact ⟨m, rfl, h⟩
  | some x => exact OwnsP.free (t := x.1) (p := x.2) h (hl x (by simp))

theorem ruleFailAt_spec {base : Nat → Option (Cell V)} {deep : Nat} (h0 : 0 < deep) (lo ro : Option (Tree V × Nat))
    {C : List (Tree V × Nat)} {m : Mem V} (h : OwnsP base (lo.toList ++ (ro.toList ++ C)) m.get)
    (hl : Shallow deep lo.toList) (hr : Shallow deep ro.toList) (hC : Shallow deep C) :
    ∃ m', ruleFailAt deep (lo.map (·.2)) (ro.map (·.2)) (C.map (·.2)) m = .ok (none, m') ∧ m'.get = base := by
  obtain ⟨m1, e1, e2⟩ := freeMaybe_spec h0 lo h hl
  obtain ⟨m2, e3, e4⟩ := freeMaybe_spec h0 ro e2 hr
  obtain ⟨m3, e5, e6⟩ := OwnsP.freeTrees (L' := []) (by simpa using e4) hC
  exact ⟨m3, by simp [ruleFailAt, e1, e3, e5], ownsP_nil.1 e6⟩

theorem OwnsP.pair {base : Nat → Option (Cell V)} {l r : Tree V} {a b : Nat} {C : List (Tree V × Nat)} {m : Mem V}
    (h : OwnsP base ((l, a) :: (r, b) :: C) m.get) : ∃ g P R, Pair g l r m a b P R ∧
      ∀ l' r' m', Pair g l' r' m' a b P R → OwnsP base ((l', a) :: (r', b) :: C) m'.get := by
  have h' : OwnsP base (C ++ [(l, a), (r, b)]) m.get := h.perm (List.perm_append_comm (l₁ := [(l, a), (r, b)]))
  obtain ⟨g, h1, S, h2, h3, h4, h5⟩ := h'.split
  obtain ⟨q, qs, P, S2, e, rfl, k1, q', qs', R, S3, e', rfl, k2, k3, rfl⟩ := h2
  cases e
  cases e'
  simp only [List.append_nil] at h3 h4 h5
  refine ⟨g, P, R, ⟨k1, k2, h3, h4, h5⟩, fun l' r' m' hp => ?_⟩
  have : OwnsP g [(l', a), (r', b)] m'.get :=
    ⟨P ++ R, ⟨a, [b], P, R, rfl, rfl, hp.left, b, [], R, [], rfl, by simp, hp.right, rfl, rfl⟩, hp.nodup, hp.new, hp.old⟩
  exact (h1.trans this).perm (List.perm_append_comm (l₂ := [(l', a), (r', b)]))

/-! ## A rule with its addresses -/

/-- The trees of a pattern with their addresses. -/
def patternPairs (p : Pattern V) (q : MemPattern) : List (Tree V × Nat) :=
  (p.tree, q.tree) :: paired p.constraints q.constraints

/-- The trees of a rule with their addresses. -/
def rulePairs (r : RewriteRule V) (f : LoadedRule) : List (Tree V × Nat) :=
  patternPairs r.pattern f.pattern ++ [(r.after, f.after)]

theorem paired_fst {acc : Nat → List (Tree V)} {accm : Nat → List Nat} (h : ∀ k, (accm k).length = (acc k).length) :
    (paired acc accm).map (·.1) = (List.range 10).flatMap acc := by
  rw [paired, List.map_flatMap]
  simp only [List.flatMap_def]
  congr 1
  refine List.map_congr_left fun k _ => ?_
  exact List.map_fst_zip (Nat.le_of_eq (h k).symm)

theorem paired_snd {acc : Nat → List (Tree V)} {accm : Nat → List Nat} (h : ∀ k, (accm k).length = (acc k).length) :
    (paired acc accm).map (·.2) = (List.range 10).flatMap accm := by
  rw [paired, List.map_flatMap]
  simp only [List.flatMap_def]
  congr 1
  refine List.map_congr_left fun k _ => ?_
  exact List.map_snd_zip (Nat.le_of_eq (h k))

theorem patternPairs_fst {p : Pattern V} {q : MemPattern} (h : FitsPattern p q) :
    (patternPairs p q).map (·.1) = patternTrees p := by
  simp only [patternPairs, List.map_cons, paired_fst h.1, patternTrees]

theorem patternPairs_snd {p : Pattern V} {q : MemPattern} (h : FitsPattern p q) :
    (patternPairs p q).map (·.2) = patternRoots q := by
  simp only [patternPairs, List.map_cons, paired_snd h.1, patternRoots]

/-- `parse_rule` from line 161 of rule_parsing.c on. -/
theorem finishParsedAt_spec {base : Nat → Option (Cell V)} {deep : Nat} {l r : Tree V} {a b : Nat}
    {C : List (Tree V × Nat)} {m : Mem V} (h : OwnsP base ((l, a) :: (r, b) :: C) m.get) (h0 : 0 < deep)
    (hl : calls l ≤ deep) (hr : calls r ≤ deep) (hC : Shallow deep C) :
    (∀ pat rule, getPattern l (C.map (·.1)) = .ok pat → getRule pat r = some rule → ∃ f m',
      finishParsedAt deep a b (C.map (·.2)) m = .ok (some f, m') ∧ OwnsP base (rulePairs rule f) m'.get ∧
      FitsPattern rule.pattern f.pattern) ∧
    (∀ pat, getPattern l (C.map (·.1)) = .ok pat → getRule pat r = none → ∃ m',
      finishParsedAt deep a b (C.map (·.2)) m = .ok (none, m') ∧ m'.get = base) ∧
    (∀ e, getPattern l (C.map (·.1)) = .error e → ∃ m',
      finishParsedAt deep a b (C.map (·.2)) m = .ok (none, m') ∧ m'.get = base) := by
  have hq : OwnsP base ((l, a) :: (C ++ [(r, b)])) m.get :=
    h.perm ((List.perm_append_singleton (r, b) C).symm.cons (l, a))
  have back : ∀ {l' r' : Tree V} {C' : List (Tree V × Nat)} {g}, OwnsP base ((l', a) :: (C' ++ [(r', b)])) g →
      OwnsP base ((l', a) :: (r', b) :: C') g := fun h => h.perm ((List.perm_append_singleton _ _).cons _)
  obtain ⟨p1, p2⟩ := patternAt_spec hq hl hC
  have good : ∀ pat, getPattern l (C.map (·.1)) = .ok pat → _ := fun pat hp => p1 pat hp
  refine ⟨fun pat rule hp hrule => ?_, fun pat hp hrule => ?_, fun e hp => ?_⟩
  · obtain ⟨q, m1, C', e1, e2, e3, e4, e5, e6, e7, e8⟩ := p1 pat hp
    obtain ⟨g, P, R, k1, k2⟩ := (back e2).pair
    obtain ⟨m2, f1, f2, f3, -⟩ := (getRuleAt_spec k1 (by rw [e8]; exact hl) hr pat.constraints).1 rule hrule
    refine ⟨⟨q, b⟩, m2, by simp [finishParsedAt, e1, f1], (k2 _ _ _ f2).perm ?_, ?_⟩
    · have : ((rule.pattern.tree, a) :: (rule.after, b) :: C').Perm (((rule.pattern.tree, a) :: C') ++ [(rule.after, b)]) :=
        (List.perm_append_singleton (rule.after, b) C').symm.cons _
      refine this.trans (List.Perm.append_right _ ?_)
      simp only [patternPairs, f3, e5]
      exact e6.symm.cons _
    · refine ⟨fun k => ?_, fun k hk => ?_⟩
      · rw [f3]; exact e7.1 k
      · rw [f3]; exact e7.2 k hk
  · obtain ⟨q, m1, C', e1, e2, e3, e4, e5, e6, e7, e8⟩ := p1 pat hp
    obtain ⟨g, P, R, k1, k2⟩ := (back e2).pair
    obtain ⟨m2, l', r', f1, f2, f3, f4, -⟩ := (getRuleAt_spec k1 (by rw [e8]; exact hl) hr pat.constraints).2 hrule
    obtain ⟨m3, g1, g2⟩ := ruleFailAt_spec h0 (some (l', a)) (some (r', b)) (C := C') (k2 _ _ _ f2)
      (Shallow.cons f3 .nil) (Shallow.cons f4 .nil) e4
    refine ⟨m3, ?_, g2⟩
    rw [e3] at g1
    simpa [finishParsedAt, e1, f1] using g1
  · obtain ⟨m1, t', C', e1, e2, e3, e4, e5⟩ := p2 e hp
    obtain ⟨m3, g1, g2⟩ := ruleFailAt_spec h0 (some (t', a)) (some (r, b)) (C := C') (back e2)
      (Shallow.cons (by rw [e5]; exact hl) .nil) (Shallow.cons hr .nil) e4
    refine ⟨m3, ?_, g2⟩
    rw [e3] at g1
    simpa [finishParsedAt, e1] using g1

theorem Shallow.of_sum {ts : List (Tree V)} {C : List (Tree V × Nat)} {n : Nat} (e : C.map (·.1) = ts)
    (h : (ts.map calls).sum ≤ n) : Shallow n C := by
  subst e
  intro x hx
  refine Nat.le_trans (List.le_sum_of_mem ?_) h
  simp only [List.map_map, List.mem_map, Function.comp]
  exact ⟨x, hx, rfl⟩

section
variable {pv : Str → Res (Option (Tree V))} {pm : Str → Mem V → Out (Option Nat × Mem V)}

/-- What `sidesAt` does on values. -/
def sidesOn (pv : Str → Res (Option (Tree V))) (left right : Str) (cs : List (Tree V)) : Res (Option (RewriteRule V)) := do
  match ← pv left with
  | none => pure none
  | some l =>
    match ← pv right with
    | none => pure none
    | some r =>
      match getPattern l cs with
      | .error _ => pure none
      | .ok pat => pure (getRule pat r)

theorem sidesAt_spec (hp : Parses pv pm) (left right : Str) (cs : List (Tree V)) :
    (∀ r, sidesOn pv left right cs = .ok (some r) → ∃ n, ∀ deep, n ≤ deep → ∀ base m C, OwnsP base C m.get →
      C.map (·.1) = cs → ∃ f m', sidesAt pm deep left right (C.map (·.2)) m = .ok (some f, m') ∧
      OwnsP base (rulePairs r f) m'.get ∧ FitsPattern r.pattern f.pattern) ∧
    (sidesOn pv left right cs = .ok none → ∃ n, ∀ deep, n ≤ deep → ∀ base m C, OwnsP base C m.get →
      C.map (·.1) = cs → ∃ m', sidesAt pm deep left right (C.map (·.2)) m = .ok (none, m') ∧ m'.get = base) := by
  unfold sidesOn
  cases hl : pv left with
  | defect => exact ⟨fun r h => (by cases h), fun h => (by cases h)⟩
  | ub => exact ⟨fun r h => (by cases h), fun h => (by cases h)⟩
  | ok lo =>
    cases lo with
    | none =>
      refine ⟨fun r h => (by cases h), fun _ => ⟨1 + (cs.map calls).sum, fun deep hd base m C hm hC => ?_⟩⟩
      obtain ⟨m1, e1, e2⟩ := hp.none _ hl m
      obtain ⟨m2, f1, f2⟩ := ruleFailAt_spec (deep := deep) (base := base) (by omega) none none (C := C) (m := m1)
        (by rw [e2]; exact hm) .nil .nil (.of_sum hC (by omega))
      exact ⟨m2, by simpa [sidesAt, e1] using f1, f2⟩
    | some l =>
      simp only [Res.bind_ok]
      cases hr : pv right with
      | defect => exact ⟨fun r h => (by cases h), fun h => (by cases h)⟩
      | ub => exact ⟨fun r h => (by cases h), fun h => (by cases h)⟩
      | ok ro =>
        cases ro with
        | none =>
          refine ⟨fun r h => (by cases h), fun _ => ⟨1 + calls l + (cs.map calls).sum, fun deep hd base m C hm hC => ?_⟩⟩
          obtain ⟨a, m1, e1, e2⟩ := hp.some _ l hl m
          obtain ⟨m2, e3, e4⟩ := hp.none _ hr m1
          have o : OwnsP base ((l, a) :: C) m2.get := by
            rw [e4]; exact (hm.trans e2).perm (List.perm_append_singleton _ _)
          obtain ⟨m3, f1, f2⟩ := ruleFailAt_spec (deep := deep) (base := base) (by omega) (some (l, a)) none (C := C)
            (m := m2) o (.cons (by omega) .nil) .nil (.of_sum hC (by omega))
          exact ⟨m3, by simpa [sidesAt, e1, e3] using f1, f2⟩
        | some r =>
          simp only [Res.bind_ok]
          have common : ∀ deep, 1 + calls l + calls r + (cs.map calls).sum ≤ deep → ∀ base m C, OwnsP base C m.get →
              C.map (·.1) = cs → ∃ a b m2, sidesAt pm deep left right (C.map (·.2)) m
                = finishParsedAt deep a b (C.map (·.2)) m2 ∧ OwnsP base ((l, a) :: (r, b) :: C) m2.get := by
            intro deep hd base m C hm hC
            obtain ⟨a, m1, e1, e2⟩ := hp.some _ l hl m
            obtain ⟨b, m2, e3, e4⟩ := hp.some _ r hr m1
            refine ⟨a, b, m2, by simp [sidesAt, e1, e3], ((hm.trans e2).trans e4).perm ?_⟩
            rw [List.append_assoc]
            exact List.perm_append_comm
          cases hg : getPattern l cs with
          | error e =>
            refine ⟨fun r h => (by cases h), fun _ => ⟨1 + calls l + calls r + (cs.map calls).sum, fun deep hd base m C hm hC => ?_⟩⟩
            obtain ⟨a, b, m2, e1, e2⟩ := common deep hd base m C hm hC
            obtain ⟨m3, f1, f2⟩ := (finishParsedAt_spec (deep := deep) e2 (by omega) (by omega) (by omega)
              (.of_sum hC (by omega))).2.2 e (by rw [hC]; exact hg)
            exact ⟨m3, by rw [e1, f1], f2⟩
          | ok pat =>
            refine ⟨fun rule h => ⟨1 + calls l + calls r + (cs.map calls).sum, fun deep hd base m C hm hC => ?_⟩,
              fun h => ⟨1 + calls l + calls r + (cs.map calls).sum, fun deep hd base m C hm hC => ?_⟩⟩
            · obtain ⟨a, b, m2, e1, e2⟩ := common deep hd base m C hm hC
              obtain ⟨f, m3, f1, f2⟩ := (finishParsedAt_spec (deep := deep) e2 (by omega) (by omega) (by omega)
                (.of_sum hC (by omega))).1 pat rule (by rw [hC]; exact hg) (by injection h)
              exact ⟨f, m3, by rw [e1, f1], f2⟩
            · obtain ⟨a, b, m2, e1, e2⟩ := common deep hd base m C hm hC
              obtain ⟨m3, f1, f2⟩ := (finishParsedAt_spec (deep := deep) e2 (by omega) (by omega) (by omega)
                (.of_sum hC (by omega))).2.1 pat (by rw [hC]; exact hg) (by injection h)
              exact ⟨m3, by rw [e1, f1], f2⟩

/-- From line 139 of rule_parsing.c on. -/
theorem partsAt_spec (hp : Parses pv pm) (str : Option Str) (left right : Str) :
    (∀ r, (parseConstraints pv maxConstraints str >>= fun co => match co with
        | none => pure none
        | some cs => sidesOn pv left right cs) = .ok (some r) → ∃ n, ∀ deep, n ≤ deep → ∀ m, ∃ f m',
      (constraintsAt pm maxConstraints str m >>= fun x => match x with
        | (false, cs, m1) => ruleFailAt deep none none cs m1
        | (true, cs, m1) => sidesAt pm deep left right cs m1) = .ok (some f, m') ∧ OwnsP m.get (rulePairs r f) m'.get ∧
      FitsPattern r.pattern f.pattern) ∧
    ((parseConstraints pv maxConstraints str >>= fun co => match co with
        | none => pure none
        | some cs => sidesOn pv left right cs) = .ok none → ∃ n, ∀ deep, n ≤ deep → ∀ m, ∃ m',
      (constraintsAt pm maxConstraints str m >>= fun x => match x with
        | (false, cs, m1) => ruleFailAt deep none none cs m1
        | (true, cs, m1) => sidesAt pm deep left right cs m1) = .ok (none, m') ∧ m'.get = m.get) := by
  obtain ⟨c1, c2⟩ := constraintsAt_spec hp maxConstraints str
  cases hc : parseConstraints pv maxConstraints str with
  | defect => exact ⟨fun r h => (by cases h), fun h => (by cases h)⟩
  | ub => exact ⟨fun r h => (by cases h), fun h => (by cases h)⟩
  | ok co =>
    cases co with
    | none =>
      refine ⟨fun r h => (by cases h), fun _ => ?_⟩
      obtain ⟨ts, k⟩ := c2 hc
      refine ⟨1 + (ts.map calls).sum, fun deep hd m => ?_⟩
      obtain ⟨L, m1, e1, e2, e3⟩ := k m
      obtain ⟨m', f1, f2⟩ := ruleFailAt_spec (deep := deep) (base := m.get) (by omega) none none (C := L) (m := m1)
        e3 .nil .nil (.of_sum e2 (by omega))
      exact ⟨m', by simpa [e1] using f1, f2⟩
    | some cs =>
      have k := c1 cs hc
      obtain ⟨s1, s2⟩ := sidesAt_spec hp left right cs
      simp only [Res.bind_ok]
      refine ⟨fun r h => ?_, fun h => ?_⟩
      · obtain ⟨n, hn⟩ := s1 r h
        refine ⟨n, fun deep hd m => ?_⟩
        obtain ⟨L, m1, e1, e2, e3⟩ := k m
        obtain ⟨f, m', f1, f2⟩ := hn deep hd m.get m1 L e3 e2
        exact ⟨f, m', by simpa [e1] using f1, f2⟩
      · obtain ⟨n, hn⟩ := s2 h
        refine ⟨n, fun deep hd m => ?_⟩
        obtain ⟨L, m1, e1, e2, e3⟩ := k m
        obtain ⟨m', f1, f2⟩ := hn deep hd m.get m1 L e3 e2
        exact ⟨m', by simpa [e1] using f1, f2⟩

/-- `parse_rule`: the nodes of the rule are new, and there are no others. -/
theorem parseRuleAt_spec (hp : Parses pv pm) (s : Str) :
    (∀ r, parseRule pv s = .ok (some r) → ∃ n, ∀ deep, n ≤ deep → ∀ m, ∃ f m',
      parseRuleAt pm deep s m = .ok (some f, m') ∧ OwnsP m.get (rulePairs r f) m'.get ∧
      FitsPattern r.pattern f.pattern) ∧
    (parseRule pv s = .ok none → ∃ n, ∀ deep, n ≤ deep → ∀ m, ∃ m',
      parseRuleAt pm deep s m = .ok (none, m') ∧ m'.get = m.get) := by
  unfold parseRule parseRuleAt
  cases strstr s "->".toList with
  | none =>
    refine ⟨fun r h => (by cases h), fun _ => ⟨1, fun deep hd m => ?_⟩⟩
    obtain ⟨m', e1, e2⟩ := ruleFailAt_spec (deep := deep) (base := m.get) hd none none (C := []) (m := m)
      (ownsP_nil.2 rfl) .nil .nil .nil
    exact ⟨m', by simpa using e1, e2⟩
  | some a =>
    cases strstr s " WHERE ".toList with
    | none => exact partsAt_spec hp _ _ _
    | some k => exact partsAt_spec hp _ _ _

/-- `parse_pattern` if it succeeds. -/
theorem parsePatternAt_spec (hp : Parses pv pm) (s : Str) {pat : Pattern V} (h : parsePattern pv s = .ok (some pat)) :
    ∃ n, ∀ deep, n ≤ deep → ∀ m, ∃ q m', parsePatternAt pm deep s m = .ok (some q, m') ∧
      OwnsP m.get (patternPairs pat q) m'.get ∧ FitsPattern pat q := by
  have key : ∀ (str : Option Str) (left : Str), (parseConstraints pv maxConstraints str >>= fun co => match co with
      | none => pure none
      | some cs => pv left >>= fun tr => match tr with
        | none => pure none
        | some t => match getPattern t cs with
          | .error _ => pure none
          | .ok pat => pure (some pat)) = Res.ok (some pat) → ∃ n, ∀ deep, n ≤ deep → ∀ m, ∃ q m',
      (constraintsAt pm maxConstraints str m >>= fun x => match x with
        | (false, _, m1) => pure (none, m1)
        | (true, cs, m1) => pm left m1 >>= fun y => match y with
          | (none, m2) => pure (none, m2)
          | (some t, m2) => patternAt deep m2 t cs) = .ok (some q, m') ∧
      OwnsP m.get (patternPairs pat q) m'.get ∧ FitsPattern pat q := by
    clear h
    intro str left h
    obtain ⟨co, hc, h⟩ := Res.bind_eq_ok.1 h
    cases co with
    | none => cases h
    | some cs =>
      obtain ⟨tr, ht, h⟩ := Res.bind_eq_ok.1 h
      cases tr with
      | none => cases h
      | some t =>
        dsimp only at h
        cases hg : getPattern t cs with
        | error e => rw [hg] at h; cases h
        | ok pat' =>
          rw [hg] at h
          cases h
          refine ⟨calls t + (cs.map calls).sum, fun deep hd m => ?_⟩
          obtain ⟨L, m1, e1, e2, e3⟩ := (constraintsAt_spec hp _ _).1 cs hc m
          obtain ⟨p, m2, e4, e5⟩ := hp.some _ t ht m1
          have o : OwnsP m.get ((t, p) :: (L ++ [])) m2.get := by
            rw [List.append_nil]; exact (e3.trans e5).perm (List.perm_append_singleton _ _)
          obtain ⟨q, m3, C', f1, f2, f3, f4, f5, f6, f7, -⟩ := (patternAt_spec (deep := deep) o (by omega)
            (.of_sum e2 (by omega))).1 pat (by rw [e2]; exact hg)
          refine ⟨q, m3, ?_, f2.perm ?_, f7⟩
          · simp only [e1, Out.bind_ok, e4, f1]
          · rw [List.append_nil]
            simp only [patternPairs, f5]
            exact f6.symm.cons _
  unfold parsePattern at h
  unfold parsePatternAt
  cases hw : strstr s " WHERE ".toList with
  | none => rw [hw] at h; exact key _ _ h
  | some k => rw [hw] at h; exact key _ _ h
end

end Verif
