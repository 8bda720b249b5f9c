import Verif.Lemmas.NodeHeapRules
import Verif.Lemmas.Bound

/-!
# Nodes in memory: nothing is lost, freed twice or used after it was freed

C96: copying, freeing, replacing, substituting and reducing trees in memory does what
the functions on trees as values say, and touches exactly the nodes that belong to the
tree.  C97: the same for the application of a rule, where the nodes bound by the
matching are parts of the tree that is replaced.

The number of calls and rounds of loops that suffice depends on the trees only through
their size; the theorems say that some number suffices.
-/

namespace Verif.OwnershipProps
open OwnershipSpec
variable {V ε : Type}

/-! ## C96 -/

/-- `tree_copy` returns the same tree again, in newly allocated nodes; nothing else changes. -/
theorem C96_copy (M : Malloc V) {m : Mem V} {t : Tree V} {p : Nat} {S : List Nat}
    (h : Holds m.get t p S) : ∃ n, ∀ fuel ≥ n, ∃ q m' T,
      copyTree M fuel m (some p) = .ok (some q, m') ∧ Holds m'.get t q T ∧ T.Nodup ∧
      (∀ a ∈ T, m.get a = none) ∧ (∀ a, a ∉ T → m'.get a = m.get a) ∧ m'.vars = m.vars :=
  ⟨calls t, fun _ hf => copyTree_spec M h hf⟩

/-- `free_tree` frees all nodes of the tree and nothing else. -/
theorem C96_free {m : Mem V} {t : Tree V} {p : Nat} {S : List Nat} (h : Holds m.get t p S)
    (hS : S.Nodup) : ∃ n, ∀ fuel ≥ n, ∃ m', freeTree fuel m (some p) = .ok m' ∧
      (∀ a ∈ S, m'.get a = none) ∧ (∀ a, a ∉ S → m'.get a = m.get a) ∧ m'.vars = m.vars := by
  refine ⟨calls t, fun fuel hf => ?_⟩
  obtain ⟨m', e1, e2, e3⟩ := freeTree_spec h hS hf
  exact ⟨m', e1, fun a ha => by rw [e2, if_pos ha], fun a ha => by rw [e2, if_neg ha], e3⟩

/-- That no node belongs to a tree twice is needed: a tree with a shared node is freed twice. -/
theorem C96_free_shared {m : Mem V} {t : Tree V} {p : Nat} {S : List Nat} (h : Holds m.get t p S)
    (hS : ¬ S.Nodup) : ∃ n, ∀ fuel ≥ n, freeTree fuel m (some p) = .ub :=
  ⟨calls t, fun _ hf => freeTree_ub (F := []) h (by simp) hf (by simp [hS])⟩

/-- A copy that is freed leaves nothing behind. -/
theorem C96_copy_free (M : Malloc V) {m : Mem V} {t : Tree V} {p : Nat} {S : List Nat}
    (h : Holds m.get t p S) : ∃ n, ∀ fuel ≥ n, ∃ q m1 m2,
      copyTree M fuel m (some p) = .ok (q, m1) ∧ freeTree fuel m1 q = .ok m2 ∧
      m2.get = m.get ∧ m2.vars = m.vars := by
  refine ⟨calls t, fun fuel hf => ?_⟩
  obtain ⟨q, m1, T, e1, e2, e3, e4, e5, e6⟩ := copyTree_spec M h hf
  obtain ⟨m2, f1, f2, f3⟩ := freeTree_spec e2 e3 hf
  refine ⟨some q, m1, m2, e1, f1, ?_, f3.trans e6⟩
  funext a
  rw [f2]
  split
  · next ha => exact (e4 a ha).symm
  · next ha => exact e5 a ha

/-- `tree_replace` frees the old tree and puts the new one into its place; nothing else
changes. -/
theorem C96_replace {m : Mem V} {slot : Slot} {t u : Tree V} {S T : List Nat} {q : Nat}
    (h : At m slot t S) (hu : Holds m.get u q T) (hT : T.Nodup) (hST : ∀ a ∈ S, a ∉ T)
    (ho : ∀ a k, slot = .child a k → a ∉ T) :
    ∃ n, ∀ fuel ≥ n, ∃ m1 m', m.assign slot (some q) = .ok m1 ∧
      replaceTree fuel m slot (some q) = .ok m' ∧ At m' slot u T ∧ (∀ a ∈ S, m'.get a = none) ∧
      (∀ a, a ∉ S → m'.get a = m1.get a) ∧ m'.vars = m1.vars := by
  refine ⟨calls t, fun fuel hf => ?_⟩
  have hown := fun a k e => h.owner (a := a) (k := k) e
  obtain ⟨p, h1, h2, h3, h4⟩ := h
  obtain ⟨m2, e1, e2, e3⟩ := freeTree_spec (fuel := fuel) h2 h3 hf
  have d2 : m2.deref slot = .ok (some p) :=
    Mem.deref_congr h1 e3 fun a k e => by rw [e2, if_neg (hown a k e).2]
  obtain ⟨m', f1, f2, f3⟩ := Mem.assign_ok d2 (some q)
  obtain ⟨m1, g1, g2, g3⟩ := Mem.assign_ok h1 (some q)
  refine ⟨m1, m', g1, by simp [replaceTree, h1, e1, f1], ⟨q, ?_, ?_, hT, ho⟩, ?_, ?_, ?_⟩
  · exact Mem.deref_put d2 f3 fun a k _ => by rw [f2]
  · refine hu.congr fun a ha => ?_
    rw [f2, putSlot_other (fun b k e e' => ho b k e (e' ▸ ha)), e2, if_neg (fun h' => hST a h' ha)]
  · intro a ha
    rw [f2, putSlot_none, e2, if_pos ha]
  · intro a ha
    rw [f2, g2]
    exact putSlot_congr (by rw [e2, if_neg ha])
  · rw [f3, g3, e3]

/-- `replace_variable_nodes`: the tree becomes what the substitution on trees as values
says.  The tree that is inserted is not part of the tree that is changed. -/
theorem C96_substitute (M : Malloc V) {m : Mem V} {slot : Slot} {t u : Tree V} {S R : List Nat}
    {r : Nat} (name : Str) (h : At m slot t S) (hu : Holds m.get u r R) (hR : ∀ a ∈ R, a ∉ S)
    (ho : ∀ a k, slot = .child a k → a ∉ R) :
    ∃ n, ∀ fuel ≥ n, ∃ m', replaceVariable M (some r) name fuel m slot = .ok (none, m') ∧
      Becomes m slot S (replaceVar u name t).1 m' ∧ Holds m'.get u r R := by
  refine ⟨calls t + calls u + 1, fun fuel hf => ?_⟩
  have hs : Safe m (fun a => a ∈ R) (fun _ => False) m slot S :=
    ⟨fun a ha => hu.live a ha, fun _ _ => rfl, fun _ h => h.elim, fun a ha hb => hR a hb ha, ho,
      fun _ _ h => h⟩
  obtain ⟨m', T, e1, e2⟩ := replaceVariable_spec M (U := fun a => a ∈ R) (W := fun _ => False) hu
    (fun _ h => h) (treeCopy_eq u) name t (fuel := fuel) h hs (by omega)
  exact ⟨m', e1, e2.becomes h, hu.congr fun a ha => (hs.trade e2).same a ha⟩

/-- `tree_reduce_constant_subtrees`: the tree becomes what the function on trees as values
says, also if there is an error. -/
theorem C96_reduce (M : Malloc V) (l : Op → List V → Except ε V) (ve : ε) {m : Mem V} {slot : Slot}
    {t : Tree V} {S : List Nat} (h : At m slot t S) (path : Path) :
    ∃ n, ∀ fuel ≥ n, ∃ m', reduceConstants M l ve fuel m slot =
        .ok ((reduceConst l ve t path).2.map (·.1), m') ∧
      Becomes m slot S (reduceConst l ve t path).1 m' := by
  refine ⟨calls t + 1, fun fuel hf => ?_⟩
  have hs : Safe m (fun _ => False) (fun _ => False) m slot S :=
    ⟨fun _ h => h.elim, fun _ h => h.elim, fun _ h => h.elim, fun _ _ h => h, fun _ _ _ h => h,
      fun _ _ h => h⟩
  obtain ⟨m', T, e1, e2⟩ := reduceConstants_spec M l ve (m0 := m) (U := fun _ => False)
    (W := fun _ => False) t h hs hf
  have hp := reduceConst_path l ve t [] path
  simp only [reduced] at e1 e2
  rw [hp.2] at e1
  rw [hp.1] at e2
  exact ⟨m', e1, e2.becomes h⟩

/-- What `Becomes` says once more: afterwards the new tree is in the place, in nodes of
its own. -/
theorem C96_becomes {m m' : Mem V} {slot : Slot} {t u : Tree V} {S : List Nat} (h : At m slot t S)
    (e : Becomes m slot S u m') : ∃ T, At m' slot u T := by
  obtain ⟨q, T, m1, e1, e2, e3⟩ := e
  have h' := h
  obtain ⟨p, h1, _⟩ := h'
  obtain ⟨m2, f1, f2, f3⟩ := Mem.assign_ok h1 (some q)
  rw [f1] at e1
  cases e1
  rw [f2] at e2
  exact ⟨T, Trade.at h ⟨q, e2, e3.trans f3⟩⟩

/-! ## C97 -/

theorem mapped {m : Mem V} {x : Nat} : ∀ {ss : List Slot} {us : List (Tree V)}, HeldAt m ss us →
    .var x ∉ ss → Mapped m (fun a => m.get a ≠ none) (fun y => y ≠ x) ss us
  | [], us, h, _ => h
  | s :: ss, _, ⟨u, us, y, X, rfl, h1, h2, h3⟩, hx => by
    simp only [List.mem_cons, not_or] at hx
    refine ⟨u, us, y, X, rfl, h1, h2, fun a ha => h2.live a ha, ?_, ?_, mapped h3 hx.2⟩
    · rintro a k rfl
      obtain ⟨o, cs, i, g, _⟩ := Mem.deref_child h1
      simp [g]
    · rintro y rfl rfl
      exact hx.1 rfl

theorem mapped_child {m : Mem V} {S : List Nat} {slot : Slot} : ∀ {ss : List Slot} {us : List (Tree V)},
    HeldAt m ss us → (∀ s ∈ ss, ∀ a k, s = .child a k → a ∉ S ∧ ∀ k', slot ≠ .child a k') →
    (∀ s ∈ ss, s ≠ slot) → (∀ u ∈ us, ∀ x X, Holds m.get u x X → ∀ a ∈ X, a ∉ S ∧ ∀ k, slot ≠ .child a k) →
    Mapped m (fun a => m.get a ≠ none ∧ a ∉ S ∧ ∀ k, slot ≠ .child a k) (fun y => slot ≠ .var y) ss us
  | [], us, h, _, _, _ => h
  | s :: ss, _, ⟨u, us, y, X, rfl, h1, h2, h3⟩, hc, hn, hd => by
    refine ⟨u, us, y, X, rfl, h1, h2, fun a ha => ⟨h2.live a ha, hd u (by simp) y X h2 a ha⟩, ?_, ?_,
      mapped_child h3 (fun s hs => hc s (by simp [hs])) (fun s hs => hn s (by simp [hs]))
        (fun u hu => hd u (by simp [hu]))⟩
    · rintro a k rfl
      obtain ⟨o, cs, i, g, _⟩ := Mem.deref_child h1
      exact ⟨by simp [g], hc _ (by simp) a k rfl⟩
    · rintro y rfl e
      exact hn _ (by simp) e.symm

/-- `tree_replace_by_list`: the child with the index `k` is replaced by copies of the trees of
the list, which are somewhere else in memory. -/
theorem C97_list (M : Malloc V) {m : Mem V} {parent : Slot} {o : Op} {cs us : List (Tree V)} {i k : Nat}
    {S : List Nat} {ss : List Slot} (h : At m parent (.op o cs i) S) (hk : k < cs.length)
    (hu : HeldAt m ss us)
    (hc : ∀ s ∈ ss, ∀ a k, s = .child a k → a ∉ S ∧ ∀ k', parent ≠ .child a k')
    (hn : ∀ s ∈ ss, s ≠ parent)
    (hd : ∀ u ∈ us, ∀ x X, Holds m.get u x X → ∀ a ∈ X, a ∉ S ∧ ∀ k, parent ≠ .child a k) :
    ∃ n, ∀ fuel ≥ n, ∃ m', replaceByList M fuel m parent k ss = .ok m' ∧
      Becomes m parent S (.op o (cs.take k ++ us ++ cs.drop (k + 1)) i) m' := by
  have hsplit : cs = cs.take k ++ cs[k] :: cs.drop (k + 1) := by
    rw [List.getElem_cons_drop, List.take_append_drop]
  have hlen : (cs.take k).length = k := by simp; omega
  have h' := h
  rw [hsplit] at h'
  refine ⟨calls cs[k] + callsAll us, fun fuel hf => ?_⟩
  obtain ⟨m', T, e1, e2⟩ := replaceByList_spec M (m0 := m)
    (U := fun a => m.get a ≠ none ∧ a ∉ S ∧ ∀ k, parent ≠ .child a k) (W := fun y => parent ≠ .var y)
    (fuel := fuel) h'
    ⟨fun a ha => ha.1, fun _ _ => rfl, fun _ _ => rfl, fun a ha hU => hU.2.1 ha,
      fun a k e hU => hU.2.2 k e, fun y e hW => hW e⟩
    (mapped_child hu hc hn hd) (by omega)
    (fun u hu => by have := callsAll_mem hu; omega)
  rw [hlen] at e1
  exact ⟨m', e1, e2.becomes h⟩

theorem le_sum {l : List Nat} {n : Nat} (h : n ∈ l) : n ≤ l.sum := by
  induction l with
  | nil => simp at h
  | cons a l ih =>
    rcases List.mem_cons.mp h with rfl | h
    · simp
    · have := ih h; simp; omega

/-- `apply_rule`, once the matching has been found: whatever places `sm` hold the trees the
matching binds — in the program they are places inside the tree that is rewritten —,
the tree becomes the tree the rule gives on trees as values.  Only the variable `x`
(`transformed`) is left with some pointer. -/
theorem C97_apply (M : Malloc V) {eqV : V → V → Bool} {checker : Tree V → Bool} {rule : RewriteRule V}
    {m : Mem V} {root matched : Slot} {t t' : Tree V} {S R : List Nat} {path : Path} {r x : Nat}
    {sm : SlotMatching} {mt : Matching V} (h : At m root t S) (hx : root ≠ .var x)
    (hf : findMatching eqV checker rule.pattern t [] = .ok (some (path, mt)))
    (ht : applyRule eqV checker rule t = .ok (some t')) (hr : Holds m.get rule.after r R)
    (hp : PlaceOf m root path matched)
    (hm : ∀ id, HeldAt m (sm id) ((mt id).getD []) ∧ .var x ∉ sm id) :
    ∃ n, ∀ fuel ≥ n, ∃ v m', rewriteAt M fuel m x (some r) matched sm = .ok m' ∧
      Becomes (m.setVar x v) root S t' m' := by
  have happ : ∃ s u, t.deref path = some s ∧
      transformByMatching mt (setTokAll s.tok rule.after) = .ok u ∧ t' = t.replaceAt path u := by
    simp only [applyRule, hf] at ht
    cases hs : t.deref path with
    | none =>
      replace ht : (match t.deref path with
        | none => Res.ub
        | some s => do
          let u ← transformByMatching mt (setTokAll s.tok (treeCopy rule.after))
          pure (some (t.replaceAt path u))) = Res.ok (some t') := ht
      rw [hs] at ht
      cases ht
    | some s =>
      replace ht : (match t.deref path with
        | none => Res.ub
        | some s => do
          let u ← transformByMatching mt (setTokAll s.tok (treeCopy rule.after))
          pure (some (t.replaceAt path u))) = Res.ok (some t') := ht
      rw [hs] at ht
      simp only [treeCopy_eq] at ht
      cases hu : transformByMatching mt (setTokAll s.tok rule.after) with
      | ok u => rw [hu] at ht; cases ht; exact ⟨s, u, rfl, hu, rfl⟩
      | defect => rw [hu] at ht; cases ht
      | ub => rw [hu] at ht; cases ht
  obtain ⟨s, u, hs, hu, rfl⟩ := happ
  have hB : ∃ B, ∀ id < maxMappedVars, ∀ u ∈ (mt id).getD [], calls u ≤ B := by
    refine ⟨((List.range maxMappedVars).map fun id => callsAll ((mt id).getD [])).sum, fun id hid u hu => ?_⟩
    have h1 := callsAll_mem hu
    have h2 : callsAll ((mt id).getD []) ≤
        ((List.range maxMappedVars).map fun id => callsAll ((mt id).getD [])).sum :=
      le_sum (List.mem_map.mpr ⟨id, List.mem_range.mpr hid, rfl⟩)
    omega
  obtain ⟨B, hB⟩ := hB
  refine ⟨calls rule.after + calls (setTokAll s.tok rule.after) + calls s + B, fun fuel hfuel => ?_⟩
  obtain ⟨v, m', T, e1, e2⟩ := rewriteAt_spec M (n := fuel) h hx hs hp hr
    (fun id _ => mapped (hm id).1 (hm id).2) hB hu (by omega)
  refine ⟨v, m', e1, e2.becomes (t := t) ?_⟩
  obtain ⟨p, h1, h2⟩ := h
  refine ⟨p, ?_, h2⟩
  cases root with
  | var y =>
    have : y ≠ x := fun e => hx (by rw [e])
    simpa [Mem.deref, Mem.setVar, this] using h1
  | child a k => exact h1

/-- Every tree a matching binds is a part of the tree in which the matching was found. -/
theorem C97_bound {eqV : V → V → Bool} {checker : Tree V → Bool} {pat : Pattern V} {t : Tree V}
    {path : Path} {mt : Matching V} (h : findMatching eqV checker pat t [] = .ok (some (path, mt)))
    {id : Nat} {l : List (Tree V)} (hl : mt id = some l) {u : Tree V} (hu : u ∈ l) :
    ∃ q, t.deref q = some u := by
  have hsnoc : ∀ (q : Path) (s : Tree V) (o : Op) (cs : List (Tree V)) (i : Nat), s.deref q = some (.op o cs i) →
      ∀ (k : Nat) (c : Tree V), cs[k]? = some c → s.deref (q ++ [k]) = some c := by
    intro q
    induction q with
    | nil =>
      intro s o cs i hs k c hc
      simp only [Tree.deref, Option.some.injEq] at hs
      subst hs
      simp [Tree.deref, hc]
    | cons j q ih =>
      intro s o cs i hs k c hc
      cases s with
      | const v i => simp [Tree.deref] at hs
      | var y z i => simp [Tree.deref] at hs
      | op o' ds i' =>
        simp only [Tree.deref, List.cons_append] at hs ⊢
        cases hj : ds[j]? with
        | none => rw [hj] at hs; simp at hs
        | some d =>
          rw [hj] at hs
          exact ih d o cs i hs k c hc
  refine findMatching_bound (P := fun u => ∃ q, t.deref q = some u) ?_ h ⟨[], by simp [Tree.deref]⟩ id l hl u hu
  rintro o cs i ⟨q, hq⟩ c hc
  obtain ⟨k, hk⟩ := List.mem_iff_getElem?.mp hc
  exact ⟨q ++ [k], hsnoc q t o cs i hq k c hk⟩

/-- Every part of a tree in memory has a place, in the variable or node the tree is in or
in a node of the tree. -/
theorem C97_places {m : Mem V} : ∀ {path : Path} {root : Slot} {t s : Tree V} {S : List Nat},
    At m root t S → t.deref path = some s → ∃ sl x X, PlaceOf m root path sl ∧
      m.deref sl = .ok (some x) ∧ Holds m.get s x X ∧ (∀ a ∈ X, a ∈ S) ∧
      (sl = root ∨ ∃ a k, sl = .child a k ∧ a ∈ S) := by
  intro path
  have key : ∀ {path : Path} {root : Slot} {t s : Tree V} {S : List Nat}, At m root t S →
      t.deref path = some s → ∃ sl, PlaceOf m root path sl := by
    intro path
    induction path with
    | nil => intro root t s S _ _; exact ⟨root, rfl⟩
    | cons k path ih =>
      intro root t s S h hd
      cases t with
      | const v i => simp [Tree.deref] at hd
      | var y z i => simp [Tree.deref] at hd
      | op o cs i =>
        simp only [Tree.deref] at hd
        cases hk : cs[k]? with
        | none => rw [hk] at hd; simp at hd
        | some c =>
          rw [hk] at hd
          obtain ⟨hlt, hc⟩ := List.getElem?_eq_some_iff.mp hk
          have hsplit : cs = cs.take k ++ c :: cs.drop (k + 1) := by
            rw [← hc, List.getElem_cons_drop, List.take_append_drop]
          have hlen : (cs.take k).length = k := by simp; omega
          rw [hsplit] at h
          obtain ⟨p, ch, S1, h1, h2, h3, h4, h5, h6⟩ := h.child
          rw [hlen] at h4
          obtain ⟨sl, hsl⟩ := ih h4 hd
          exact ⟨sl, p, h1, hsl⟩
  intro root t s S h hd
  obtain ⟨sl, hsl⟩ := key h hd
  obtain ⟨S1, ⟨x, g1, g2, _⟩, g3, g4, _⟩ := h.path hd hsl
  exact ⟨sl, x, S1, hsl, g1, g2, g3, g4⟩

/-- So places inside the tree for everything the matching binds exist, and the rule can be
applied in memory whenever it can be applied to trees as values. -/
theorem C97_exists (M : Malloc V) {eqV : V → V → Bool} {checker : Tree V → Bool} {rule : RewriteRule V}
    {m : Mem V} {root : Slot} {t t' : Tree V} {S R : List Nat} {r x : Nat} (h : At m root t S)
    (hx : root ≠ .var x) (ht : applyRule eqV checker rule t = .ok (some t'))
    (hr : Holds m.get rule.after r R) :
    ∃ path mt matched sm, findMatching eqV checker rule.pattern t [] = .ok (some (path, mt)) ∧
      PlaceOf m root path matched ∧ (∀ id, HeldAt m (sm id) ((mt id).getD [])) ∧
      (∀ id, ∀ s ∈ sm id, s = root ∨ ∃ a k, s = .child a k ∧ a ∈ S) ∧
      ∃ n, ∀ fuel ≥ n, ∃ v m', rewriteAt M fuel m x (some r) matched sm = .ok m' ∧
        Becomes (m.setVar x v) root S t' m' := by
  cases hf : findMatching eqV checker rule.pattern t [] with
  | defect => simp only [applyRule, hf] at ht; cases ht
  | ub => simp only [applyRule, hf] at ht; cases ht
  | ok res =>
    cases res with
    | none => simp only [applyRule, hf] at ht; cases ht
    | some pm =>
      obtain ⟨path, mt⟩ := pm
      have hlist : ∀ us : List (Tree V), (∀ u ∈ us, ∃ q, t.deref q = some u) →
          ∃ ss, HeldAt m ss us ∧ ∀ s ∈ ss, s = root ∨ ∃ a k, s = .child a k ∧ a ∈ S := by
        intro us
        induction us with
        | nil => intro _; exact ⟨[], rfl, by simp⟩
        | cons u us ih =>
          intro hus
          obtain ⟨ss, h1, h2⟩ := ih fun v hv => hus v (by simp [hv])
          obtain ⟨q, hq⟩ := hus u (by simp)
          obtain ⟨sl, y, X, _, g1, g2, _, g3⟩ := C97_places h hq
          refine ⟨sl :: ss, ⟨u, us, y, X, rfl, g1, g2, h1⟩, ?_⟩
          intro s hs
          rcases List.mem_cons.mp hs with rfl | hs
          · exact g3
          · exact h2 s hs
      have hbound : ∀ id, ∀ u ∈ (mt id).getD [], ∃ q, t.deref q = some u := by
        intro id u hu
        cases hl : mt id with
        | none => rw [hl] at hu; simp at hu
        | some l => rw [hl] at hu; exact C97_bound hf hl hu
      choose sm hsm using fun id => hlist _ (hbound id)
      have hs : ∃ s, t.deref path = some s := by
        cases hs : t.deref path with
        | some s => exact ⟨s, rfl⟩
        | none =>
          simp only [applyRule, hf] at ht
          replace ht : (match t.deref path with
            | none => Res.ub
            | some s => do
              let u ← transformByMatching mt (setTokAll s.tok (treeCopy rule.after))
              pure (some (t.replaceAt path u))) = Res.ok (some t') := ht
          rw [hs] at ht
          cases ht
      obtain ⟨s, hs⟩ := hs
      obtain ⟨matched, _, _, hp, _⟩ := C97_places h hs
      refine ⟨path, mt, matched, sm, rfl, hp, fun id => (hsm id).1, fun id => (hsm id).2, ?_⟩
      refine C97_apply M h hx hf ht hr hp fun id => ⟨(hsm id).1, fun hmem => ?_⟩
      rcases (hsm id).2 _ hmem with e | ⟨a, k, e, _⟩
      · exact hx e.symm
      · cases e

/-! ## The hypotheses are met

`malloc` as an allocator that hands out the address after the highest one in use: so
addresses that have been freed are used again.  `x + 5` is in the variable 0 at the
addresses 1, 2 and 3; 9 is at the address 7. -/

/-- One more than the highest address in use. -/
def above (cells : List (Nat × Cell Nat)) : Nat := cells.foldr (fun c n => max (c.1 + 1) n) 0

theorem above_fresh (cells : List (Nat × Cell Nat)) : ∀ c ∈ cells, c.1 < above cells := by
  induction cells with
  | nil => simp
  | cons d cells ih =>
    intro c hc
    simp only [above, List.foldr_cons]
    rcases List.mem_cons.mp hc with rfl | hc
    · omega
    · have := ih c hc
      simp only [above] at this
      omega

def bump : Malloc Nat := ⟨above, fun cells c hc => Nat.ne_of_lt (above_fresh cells c hc)⟩

def plus : Op := ⟨['+'], 4, .fixed 2, 2, .left, .infix⟩

def sample : Mem Nat :=
  ⟨[(1, .op plus [some 2, some 3] 1), (2, .var ['x'] 0 0), (3, .const 5 2), (7, .const 9 0)],
    fun y => if y = 0 then some 1 else none⟩

def sum : Tree Nat := .op plus [.var ['x'] 0 0, .const 5 2] 1

theorem sample_holds : Holds sample.get sum 1 [1, 2, 3] :=
  ⟨[2, 3], [2, 3], rfl, ⟨2, [3], [2], [3], rfl, rfl, ⟨rfl, rfl⟩,
    3, [], [3], [], rfl, rfl, ⟨rfl, rfl⟩, rfl, rfl⟩, rfl⟩

theorem sample_at : At sample (.var 0) sum [1, 2, 3] :=
  ⟨1, rfl, sample_holds, by decide, fun _ _ h => nomatch h⟩

/-- What is allocated after a function has run, or nothing if it did not return. -/
def cellsOf : Out (Mem Nat) → List (Nat × Cell Nat)
  | .ok m => m.cells
  | _ => []

example := C96_copy bump sample_holds
example : (match copyTree bump 9 sample (some 1) with
    | .ok (p, m) => (p, m.cells.take 3)
    | _ => (none, [])) =
      (some 8, [(10, .const 5 2), (9, .var ['x'] 0 0), (8, .op plus [some 9, some 10] 1)]) := by decide

example := C96_free sample_holds (by decide)
example : cellsOf (freeTree 9 sample (some 1)) = [(7, .const 9 0)] := by decide

/-- A sum whose children are the same node. -/
def shared : Mem Nat := ⟨[(1, .op plus [some 2, some 2] 1), (2, .const 5 2)], fun _ => none⟩
theorem shared_holds :
    Holds shared.get (.op plus [.const 5 2, .const 5 2] 1) 1 [1, 2, 2] :=
  ⟨[2, 2], [2, 2], rfl, ⟨2, [2], [2], [2], rfl, rfl, ⟨rfl, rfl⟩,
    2, [], [2], [], rfl, rfl, ⟨rfl, rfl⟩, rfl, rfl⟩, rfl⟩
example := C96_free_shared shared_holds (by decide)
example := C96_copy bump shared_holds
example := C96_copy_free bump sample_holds

example := C96_replace (u := .const 9 0) (q := 7) (T := [7]) sample_at ⟨rfl, rfl⟩ (by decide)
  (by decide) (fun _ _ h => nomatch h)
example : cellsOf (replaceTree 9 sample (.var 0) (some 7)) = [(7, .const 9 0)] := by decide

example := C96_substitute bump (u := .const 9 0) (r := 7) (R := [7]) ['x'] sample_at ⟨rfl, rfl⟩
  (by decide) (fun _ _ h => nomatch h)
example : (match replaceVariable bump (some 7) ['x'] 9 sample (.var 0) with
    | .ok (_, m) => m.cells
    | _ => []) = [(8, .const 9 0), (1, .op plus [some 8, some 3] 1), (3, .const 5 2), (7, .const 9 0)] := by
  decide

/-- Adds up constants. -/
def adds (_ : Op) (l : List Nat) : Except Bool Nat := if l.length = 2 then .ok l.sum else .error true

def constants : Mem Nat :=
  ⟨[(1, .op plus [some 2, some 3] 1), (2, .const 4 0), (3, .const 5 2), (7, .const 9 0)],
    fun y => if y = 0 then some 1 else none⟩
theorem constants_at : At constants (.var 0) (.op plus [.const 4 0, .const 5 2] 1) [1, 2, 3] :=
  ⟨1, rfl, ⟨[2, 3], [2, 3], rfl, ⟨2, [3], [2], [3], rfl, rfl, ⟨rfl, rfl⟩,
    3, [], [3], [], rfl, rfl, ⟨rfl, rfl⟩, rfl, rfl⟩, rfl⟩, by decide, fun _ _ h => nomatch h⟩
example := C96_reduce bump adds false constants_at []
example := C96_reduce bump adds false sample_at []
example : (match reduceConstants bump adds false 9 constants (.var 0) with
    | .ok (_, m) => m.cells
    | _ => []) = [(8, .const 9 1), (7, .const 9 0)] := by decide

/-- The variable of the sum in `sample` is replaced by the constants at 7 and 7. -/
def twoMore : Mem Nat := { sample with vars := fun y => if y = 0 then some 1 else some 7 }
theorem twoMore_at : At twoMore (.var 0) sum [1, 2, 3] :=
  ⟨1, rfl, sample_holds, by decide, fun _ _ h => nomatch h⟩
theorem twoMore_held : HeldAt twoMore [.var 1, .var 2] [.const 9 0, .const 9 0] :=
  ⟨_, _, 7, [7], rfl, rfl, ⟨rfl, rfl⟩, _, _, 7, [7], rfl, rfl, ⟨rfl, rfl⟩, rfl⟩
theorem constant_only {x : Nat} {X : List Nat} (h : Holds twoMore.get (.const 9 0) x X) : X = [7] := by
  obtain ⟨h, rfl⟩ := h
  simp only [Mem.get, twoMore, sample, List.find?] at h
  by_cases h1 : 1 = x
  · subst h1; simp at h
  by_cases h2 : 2 = x
  · subst h2; simp at h
  by_cases h3 : 3 = x
  · subst h3; simp at h
  by_cases h7 : 7 = x
  · rw [h7]
  · simp [h1, h2, h3, h7] at h
example := C97_list bump (k := 0) (ss := [.var 1, .var 2]) twoMore_at (by decide) twoMore_held
  (by simp) (by simp) (by
    intro u hu x X hX a ha
    have : u = .const 9 0 := by simpa using hu
    subst this
    rw [constant_only hX] at ha
    simp at ha
    subst ha
    simp)
example : cellsOf (replaceByList bump 9 twoMore (.var 0) 0 [.var 1, .var 2]) =
    [(10, .const 9 0), (9, .const 9 0), (8, .op plus [some 9, some 10, some 3] 1), (3, .const 5 2),
      (7, .const 9 0)] := by decide

/-- The rule `a + b -> b + a`. -/
def swap : RewriteRule Nat :=
  ⟨⟨.op plus [.var ['a'] 0 0, .var ['b'] 1 2] 1, fun _ => []⟩, .op plus [.var ['b'] 1 0, .var ['a'] 0 2] 1⟩

/-- The sum `x + 5` in variable 0 and the right side of the rule at 4, 5 and 6. -/
def rewritten : Mem Nat :=
  ⟨[(1, .op plus [some 2, some 3] 1), (2, .var ['x'] 0 0), (3, .const 5 2),
    (4, .op plus [some 5, some 6] 1), (5, .var ['b'] 1 0), (6, .var ['a'] 0 2)],
    fun y => if y = 0 then some 1 else none⟩

theorem rewritten_at : At rewritten (.var 0) sum [1, 2, 3] :=
  ⟨1, rfl, ⟨[2, 3], [2, 3], rfl, ⟨2, [3], [2], [3], rfl, rfl, ⟨rfl, rfl⟩,
    3, [], [3], [], rfl, rfl, ⟨rfl, rfl⟩, rfl, rfl⟩, rfl⟩, by decide, fun _ _ h => nomatch h⟩
theorem rewritten_rule : Holds rewritten.get swap.after 4 [4, 5, 6] :=
  ⟨[5, 6], [5, 6], rfl, ⟨5, [6], [5], [6], rfl, rfl, ⟨rfl, rfl⟩,
    6, [], [6], [], rfl, rfl, ⟨rfl, rfl⟩, rfl, rfl⟩, rfl⟩
theorem rewritten_apply : applyRule (· == ·) (fun _ => true) swap sum =
    .ok (some (.op plus [.const 5 2, .var ['x'] 0 0] 1)) := by rfl

example := C97_exists bump (x := 1) rewritten_at (by simp) rewritten_apply rewritten_rule

/-- The places of the children of the node at 1, as the matching binds them. -/
def bindings : SlotMatching := fun id =>
  if id = 0 then [.child 1 0] else if id = 1 then [.child 1 1] else []

example : ∃ mt, findMatching (· == ·) (fun _ => true) swap.pattern sum [] = .ok (some ([], mt)) ∧
    (∀ id, HeldAt rewritten (bindings id) ((mt id).getD [])) := by
  refine ⟨_, rfl, ?_⟩
  intro id
  match id with
  | 0 => exact ⟨_, _, 2, [2], rfl, rfl, ⟨rfl, rfl⟩, rfl⟩
  | 1 => exact ⟨_, _, 3, [3], rfl, rfl, ⟨rfl, rfl⟩, rfl⟩
  | n + 2 => exact rfl

example : cellsOf (rewriteAt bump 9 rewritten 1 (some 4) (.var 0) bindings) =
    [(11, .var ['x'] 0 0), (10, .const 5 2), (7, .op plus [some 10, some 11] 1),
      (4, .op plus [some 5, some 6] 1), (5, .var ['b'] 1 0), (6, .var ['a'] 0 2)] := by decide

/-- A part of the tree in memory, and its place. -/
example := C97_places (path := [1]) (s := .const 5 2) rewritten_at rfl

end Verif.OwnershipProps
