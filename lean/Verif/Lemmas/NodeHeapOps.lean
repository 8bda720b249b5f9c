import Verif.Lemmas.NodeHeap

/-!
# Lemmas on the functions that exchange trees in memory
-/

namespace Verif
open OwnershipSpec
variable {V ε : Type}

theorem OwnershipSpec.At.root {m : Mem V} {slot : Slot} {t : Tree V} {S : List Nat} (h : At m slot t S)
    {p : Option Nat} (e : m.deref slot = .ok p) : ∃ q, p = some q ∧ q ∈ S ∧ Holds m.get t q S := by
  obtain ⟨q, h1, h2, _⟩ := h
  rw [h1] at e
  cases e
  exact ⟨q, rfl, h2.root_mem, h2⟩

/-! ## tree_replace -/

/-- A new tree takes the place of an old one. -/
theorem replaceTree_new {m mA : Mem V} {slot : Slot} {t u : Tree V} {S T : List Nat} {q fuel : Nat}
    (h : At m slot t S) (hu : Holds mA.get u q T) (hn : T.Nodup) (hf : ∀ a ∈ T, m.get a = none)
    (hg : ∀ a, a ∉ T → mA.get a = m.get a) (hv : mA.vars = m.vars) (hfuel : calls t ≤ fuel) :
    ∃ m', replaceTree fuel mA slot (some q) = .ok m' ∧ Trade m slot S u T m' := by
  have ho := fun a k hs => h.owner (a := a) (k := k) hs
  obtain ⟨p, h1, h2, h3, h4⟩ := h
  have hTS : ∀ a ∈ S, a ∉ T := fun a ha hT => h2.live a ha (hf a hT)
  have hoT : ∀ a k, slot = .child a k → a ∉ T := fun a k e hT => (ho a k e).1 (hf a hT)
  have d1 : mA.deref slot = .ok (some p) :=
    Mem.deref_congr h1 hv fun a k e => hg a (hoT a k e)
  obtain ⟨m1, e1, e2, e3⟩ := freeTree_spec (fuel := fuel)
    (h2.congr fun a ha => hg a (hTS a ha)) h3 hfuel
  have d2 : m1.deref slot = .ok (some p) :=
    Mem.deref_congr d1 e3 fun a k e => by rw [e2, if_neg (ho a k e).2]
  obtain ⟨m2, f1, f2, f3⟩ := Mem.assign_ok d2 (some q)
  have hm1 : ∀ a, a ∈ T → m1.get a = mA.get a := fun a ha => by
    rw [e2, if_neg (fun h' => hTS a h' ha)]
  refine ⟨m2, by simp [replaceTree, d1, e1, f1], q, ⟨?_, hn, ?_, ?_, ?_⟩, by rw [f3, e3, hv]⟩
  · refine hu.congr fun a ha => ?_
    rw [f2, putSlot_other (fun b k e e' => hoT b k e (e' ▸ ha)), hm1 a ha]
  · exact fun a ha => .inr (putSlot_none.mpr (hf a ha))
  · intro a ha _
    rw [f2, putSlot_none, e2, if_pos ha]
  · intro a ha hb
    rw [f2]
    exact putSlot_congr (by rw [e2, if_neg ha, hg a hb])

/-- A copy of a tree takes the place of an old one. -/
theorem copy_replace (M : Malloc V) {m : Mem V} {slot : Slot} {t u : Tree V} {S R : List Nat}
    {r fuel fuel' : Nat} (h : At m slot t S) (hu : Holds m.get u r R) (h1 : calls u ≤ fuel)
    (h2 : calls t ≤ fuel') :
    ∃ a mA m' T, copyTree M fuel m (some r) = .ok (a, mA) ∧ replaceTree fuel' mA slot a = .ok m' ∧
      Trade m slot S u T m' := by
  obtain ⟨q, mA, T, e1, e2, e3, e4, e5, e6⟩ := copyTree_spec M hu h1
  obtain ⟨m', f1, f2⟩ := replaceTree_new h e2 e3 e4 e5 e6 h2
  exact ⟨some q, mA, m', T, e1, f1, f2⟩

/-! ## Memory that stays as it is -/

/-- The addresses `U` and the variables `W` are as in the memory `m0` and have nothing to do
with the nodes `S` in the place `slot`. -/
structure Safe (m0 : Mem V) (U W : Nat → Prop) (m : Mem V) (slot : Slot) (S : List Nat) : Prop where
  live : ∀ a, U a → m0.get a ≠ none
  same : ∀ a, U a → m.get a = m0.get a
  vars : ∀ y, W y → m.vars y = m0.vars y
  apart : ∀ a ∈ S, ¬ U a
  owner : ∀ a k, slot = .child a k → ¬ U a
  var : ∀ y, slot = .var y → ¬ W y

theorem Safe.trade {m0 m m' : Mem V} {U W : Nat → Prop} {slot : Slot} {S T : List Nat} {u : Tree V}
    (h : Safe m0 U W m slot S) (e : Trade m slot S u T m') : Safe m0 U W m' slot T := by
  obtain ⟨q, e1, e2⟩ := e
  have hT : ∀ a ∈ T, ¬ U a := fun a ha hU => by
    rcases e1.fresh a ha with h' | h'
    · exact h.apart a h' hU
    · exact h.live a hU (by rw [← h.same a hU]; exact putSlot_none.mp h')
  refine ⟨h.live, fun a ha => ?_, fun y hy => ?_, hT, h.owner, h.var⟩
  · rw [e1.frame a (fun h' => h.apart a h' ha) (fun h' => hT a h' ha),
      putSlot_other (fun b k e e' => h.owner b k e (e' ▸ ha)), h.same a ha]
  · rw [e2, ← h.vars y hy]
    cases slot with
    | var x =>
      have : y ≠ x := fun e => h.var x rfl (e ▸ hy)
      simp [putVar, this]
    | child p k => rfl

theorem Safe.child {m0 m : Mem V} {U W : Nat → Prop} {slot : Slot} {S S1 : List Nat} {p k : Nat}
    (h : Safe m0 U W m slot S) (hp : p ∈ S) (hS : ∀ a ∈ S1, a ∈ S) :
    Safe m0 U W m (.child p k) S1 :=
  ⟨h.live, h.same, h.vars, fun a ha => h.apart a (hS a ha), fun a j e => by cases e; exact h.apart _ hp,
    fun y e => by cases e⟩

/-! ## Loops over the children -/

/-- What the loop leaves behind if `F` is what happens to a child. -/
def loopResult (F : Tree V → Tree V × Option ε) : List (Tree V) → List (Tree V) × Option ε
  | [] => ([], none)
  | c :: cs =>
    match F c with
    | (c', some e) => (c' :: cs, some e)
    | (c', none) => ((c' :: (loopResult F cs).1), (loopResult F cs).2)

theorem childLoop_spec {m0 : Mem V} {U W : Nat → Prop} {f : Mem V → Slot → Out (Option ε × Mem V)}
    {F : Tree V → Tree V × Option ε} {o : Op} {i : Nat} {slot : Slot} : ∀ {ts ds : List (Tree V)}
    {m : Mem V} {S : List Nat} {n : Nat},
    (∀ c ∈ ts, ∀ (m : Mem V) (sl : Slot) (S : List Nat), At m sl c S → Safe m0 U W m sl S →
      ∃ m' T, f m sl = .ok ((F c).2, m') ∧ Trade m sl S (F c).1 T m') →
    At m slot (.op o (ds ++ ts) i) S → Safe m0 U W m slot S → ts.length < n →
    ∃ m' T, childLoop f n m slot ds.length = .ok ((loopResult F ts).2, m') ∧
      Trade m slot S (.op o (ds ++ (loopResult F ts).1) i) T m'
  | [], ds, m, S, n, hf, h, hs, hn => by
    cases n with
    | zero => simp at hn
    | succ n =>
      refine ⟨m, S, ?_, by simpa [loopResult] using Trade.refl h⟩
      obtain ⟨p, h1, ⟨ps, T, h2, h3, _⟩, _⟩ := h
      have hl := h3.length
      simp only [List.append_nil] at hl
      simp [childLoop, h1, h2, hl, loopResult]
  | c :: ts, ds, m, S, n, hf, h, hs, hn => by
    cases n with
    | zero => simp at hn
    | succ n =>
      obtain ⟨p, cs, S1, h1, h2, h3, h4, h5, h6⟩ := h.child
      obtain ⟨_, e, hp, _⟩ := h.root h1
      cases e
      obtain ⟨m1, T1, e1, e2⟩ := hf c (by simp) m _ S1 h4 (hs.child hp h5)
      obtain ⟨T, e3⟩ := h6 _ _ _ e2
      have hlt : ds.length < cs.length := by rw [h3]; simp
      cases hF : F c with
      | mk c' er =>
        rw [hF] at e1 e3
        cases er with
        | some er =>
          refine ⟨m1, T, ?_, by simpa [loopResult, hF] using e3⟩
          simp [childLoop, h1, h2, hlt, e1, loopResult, hF]
        | none =>
          obtain ⟨m2, T2, g1, g2⟩ := childLoop_spec (ts := ts) (ds := ds ++ [c']) (n := n)
            (fun d hd => hf d (by simp [hd])) (by simpa using e3.at h) (hs.trade e3)
            (by simp at hn; omega)
          refine ⟨m2, T2, ?_, ?_⟩
          · simp only [List.length_append, List.length_singleton] at g1
            simp [childLoop, h1, h2, hlt, e1, loopResult, hF, g1]
          · have := e3.trans h g2
            simpa [loopResult, hF] using this

/-! ## replace_variable_nodes -/

theorem callsAll_mem {ts : List (Tree V)} {c : Tree V} (h : c ∈ ts) : calls c < callsAll ts := by
  induction ts with
  | nil => simp at h
  | cons d ts ih =>
    simp only [callsAll]
    rcases List.mem_cons.mp h with rfl | h
    · omega
    · have := ih h; omega

theorem callsAll_length (ts : List (Tree V)) : ts.length < callsAll ts := by
  induction ts with
  | nil => simp [callsAll]
  | cons d ts ih => simp only [callsAll, List.length_cons]; omega

theorem replaceVars_loop (r : Tree V) (name : Str) (ts : List (Tree V)) :
    loopResult (fun c => ((replaceVar r name c).1, (none : Option Empty))) ts =
      ((replaceVars r name ts).1, none) := by
  induction ts with
  | nil => rfl
  | cons c ts ih => simp only [loopResult, replaceVars, ih]

theorem replaceVariable_spec (M : Malloc V) {m0 : Mem V} {U W : Nat → Prop} {u : Tree V} {r : Nat}
    {R : List Nat} (hu : Holds m0.get u r R) (hR : ∀ a ∈ R, U a) (hcopy : treeCopy u = u) (name : Str)
    (t : Tree V) : ∀ {m : Mem V} {slot : Slot} {S : List Nat} {fuel : Nat}, At m slot t S →
    Safe m0 U W m slot S → calls t + calls u < fuel →
    ∃ m' T, replaceVariable M (some r) name fuel m slot = .ok (none, m') ∧
      Trade m slot S (replaceVar u name t).1 T m' := by
  induction t using Tree.induct with
  | hc v i =>
    intro m slot S fuel h _ hf
    cases fuel with
    | zero => simp at hf
    | succ n =>
      refine ⟨m, S, ?_, Trade.refl h⟩
      obtain ⟨p, h1, ⟨h2, _⟩, _⟩ := h
      simp [replaceVariable, h1, Mem.load, h2]
  | hv x k i =>
    intro m slot S fuel h hs hf
    cases fuel with
    | zero => simp at hf
    | succ n =>
      have h' := h
      obtain ⟨p, h1, ⟨h2, _⟩, _⟩ := h'
      by_cases hx : name = x
      · obtain ⟨a, mA, m', T, e1, e2, e3⟩ := copy_replace M h
          (hu.congr fun a ha => hs.same a (hR a ha)) (fuel := n) (fuel' := n) (by omega)
          (by simp [calls] at hf ⊢; omega)
        refine ⟨m', T, ?_, by simpa [replaceVar, hx, hcopy] using e3⟩
        simp [replaceVariable, h1, Mem.load, h2, hx, e1, e2]
      · refine ⟨m, S, ?_, by simpa [replaceVar, hx] using Trade.refl h⟩
        simp [replaceVariable, h1, Mem.load, h2, hx]
  | ho o cs i ih =>
    intro m slot S fuel h hs hf
    cases fuel with
    | zero => simp at hf
    | succ n =>
      simp only [calls] at hf
      obtain ⟨m', T, e1, e2⟩ := childLoop_spec (n := n) (ds := [])
        (f := replaceVariable M (some r) name n)
        (F := fun c => ((replaceVar u name c).1, (none : Option Empty))) (ts := cs)
        (fun c hc m sl S hA hS => ih c hc hA hS (by have := callsAll_mem hc; omega))
        (by simpa using h) hs (by have := callsAll_length cs; omega)
      rw [replaceVars_loop] at e1 e2
      refine ⟨m', T, ?_, by simpa [replaceVar] using e2⟩
      obtain ⟨p, h1, ⟨ps, _, h2, _⟩, _⟩ := h
      simp only [List.length_nil] at e1
      simp [replaceVariable, h1, Mem.load, h2, e1]

/-! ## tree_reduce_constant_subtrees -/

mutual
theorem countVariables_spec : ∀ {t : Tree V} {m : Mem V} {p : Nat} {S : List Nat} {fuel : Nat},
    Holds m.get t p S → calls t ≤ fuel → countVariables fuel m (some p) = .ok (countVars t)
  | .const v i, m, p, S, fuel, ⟨h1, _⟩, hf => by
    cases fuel with
    | zero => simp [calls] at hf
    | succ n => simp [countVariables, h1, countVars]
  | .var x k i, m, p, S, fuel, ⟨h1, _⟩, hf => by
    cases fuel with
    | zero => simp [calls] at hf
    | succ n => simp [countVariables, h1, countVars]
  | .op o cs i, m, p, S, fuel, ⟨ps, T, h1, h2, _⟩, hf => by
    cases fuel with
    | zero => simp [calls] at hf
    | succ n =>
      simp [countVariables, h1, countVars,
        countVariablesList_spec (n := n) h2 (by simp [calls] at hf; omega)]
theorem countVariablesList_spec : ∀ {ts : List (Tree V)} {m : Mem V} {ps S : List Nat} {n : Nat},
    HoldsAll m.get ts ps S → callsAll ts ≤ n →
    countVariablesList n m (ps.map some) = .ok (countVarsList ts)
  | [], m, ps, S, n, h, hf => by
    obtain ⟨rfl, _⟩ := h
    cases n with
    | zero => simp [callsAll] at hf
    | succ n => simp [countVariablesList, countVarsList]
  | c :: ts, m, _, S, n, ⟨p, qs, S1, S2, rfl, _, h3, h4⟩, hf => by
    cases n with
    | zero => simp [callsAll] at hf
    | succ n =>
      simp only [callsAll] at hf
      simp [countVariablesList, countVarsList, countVariables_spec (fuel := n) h3 (by omega),
        countVariablesList_spec (n := n) h4 (by omega)]
end

/-- The result of `tree_reduce` without the node of the error. -/
def plain {α : Type} : Except (ε × Path) α → Except ε α
  | .ok v => .ok v
  | .error e => .error e.1

mutual
theorem reduceTree_spec (l : Op → List V → Except ε V) (ve : ε) : ∀ {t : Tree V} {m : Mem V}
    {p : Nat} {S : List Nat} {fuel : Nat} (path : Path), Holds m.get t p S → calls t ≤ fuel →
    reduceTree l ve fuel m (some p) = .ok (plain (treeReduce l ve t path))
  | .const v i, m, p, S, fuel, path, ⟨h1, _⟩, hf => by
    cases fuel with
    | zero => simp [calls] at hf
    | succ n => simp [reduceTree, h1, treeReduce, plain]
  | .var x k i, m, p, S, fuel, path, ⟨h1, _⟩, hf => by
    cases fuel with
    | zero => simp [calls] at hf
    | succ n => simp [reduceTree, h1, treeReduce, plain]
  | .op o cs i, m, p, S, fuel, path, ⟨ps, T, h1, h2, _⟩, hf => by
    cases fuel with
    | zero => simp [calls] at hf
    | succ n =>
      simp only [reduceTree, h1, treeReduce,
        reduceTrees_spec l ve (n := n) path 0 h2 (by simp [calls] at hf; omega), Out.bind_ok]
      cases reduceArgs l ve cs path 0 with
      | error e => rfl
      | ok vs =>
        simp only [plain]
        cases l o vs <;> rfl
theorem reduceTrees_spec (l : Op → List V → Except ε V) (ve : ε) : ∀ {ts : List (Tree V)} {m : Mem V}
    {ps S : List Nat} {n : Nat} (path : Path) (k : Nat), HoldsAll m.get ts ps S → callsAll ts ≤ n →
    reduceTrees l ve n m (ps.map some) = .ok (plain (reduceArgs l ve ts path k))
  | [], m, ps, S, n, path, k, h, hf => by
    obtain ⟨rfl, _⟩ := h
    cases n with
    | zero => simp [callsAll] at hf
    | succ n => simp [reduceTrees, reduceArgs, plain]
  | c :: ts, m, _, S, n, path, k, ⟨p, qs, S1, S2, rfl, _, h3, h4⟩, hf => by
    cases n with
    | zero => simp [callsAll] at hf
    | succ n =>
      simp only [callsAll] at hf
      simp only [List.map_cons, reduceTrees, reduceArgs,
        reduceTree_spec l ve (fuel := n) (path ++ [k]) h3 (by omega),
        reduceTrees_spec l ve (n := n) path (k + 1) h4 (by omega), Out.bind_ok]
      cases treeReduce l ve c (path ++ [k]) with
      | error e => rfl
      | ok v =>
        simp only [plain]
        cases reduceArgs l ve ts path (k + 1) <;> rfl
end

/-- What `tree_reduce_constant_subtrees` does, without the node of the error. -/
def reduced (l : Op → List V → Except ε V) (ve : ε) (t : Tree V) : Tree V × Option ε :=
  ((reduceConst l ve t []).1, (reduceConst l ve t []).2.map (·.1))

mutual
theorem treeReduce_path (l : Op → List V → Except ε V) (ve : ε) : ∀ (t : Tree V) (p q : Path),
    plain (treeReduce l ve t p) = plain (treeReduce l ve t q)
  | .const v i, p, q => rfl
  | .var x k i, p, q => rfl
  | .op o cs i, p, q => by
    have := reduceArgs_path l ve cs p q 0 0
    simp only [treeReduce]
    cases h1 : reduceArgs l ve cs p 0 <;> cases h2 : reduceArgs l ve cs q 0 <;>
      simp only [h1, h2, plain, Except.error.injEq, Except.ok.injEq, reduceCtorEq] at this ⊢
    · exact this
    · subst this
      next vs =>
      cases l o vs <;> rfl
theorem reduceArgs_path (l : Op → List V → Except ε V) (ve : ε) : ∀ (ts : List (Tree V)) (p q : Path)
    (j k : Nat), plain (reduceArgs l ve ts p j) = plain (reduceArgs l ve ts q k)
  | [], p, q, j, k => rfl
  | c :: ts, p, q, j, k => by
    have h := treeReduce_path l ve c (p ++ [j]) (q ++ [k])
    have h' := reduceArgs_path l ve ts p q (j + 1) (k + 1)
    simp only [reduceArgs]
    cases h1 : treeReduce l ve c (p ++ [j]) <;> cases h2 : treeReduce l ve c (q ++ [k]) <;>
      simp only [h1, h2, plain, Except.error.injEq, Except.ok.injEq, reduceCtorEq] at h ⊢
    · exact h
    · subst h
      cases h3 : reduceArgs l ve ts p (j + 1) <;> cases h4 : reduceArgs l ve ts q (k + 1) <;>
        simp only [h3, h4, plain, Except.error.injEq, Except.ok.injEq, reduceCtorEq] at h' ⊢
      · exact h'
      · rw [h']
end

mutual
theorem reduceConst_path (l : Op → List V → Except ε V) (ve : ε) : ∀ (t : Tree V) (p q : Path),
    (reduceConst l ve t p).1 = (reduceConst l ve t q).1 ∧
      (reduceConst l ve t p).2.map (·.1) = (reduceConst l ve t q).2.map (·.1)
  | .const v i, p, q => by simp [reduceConst, countVars, treeReduce]
  | .var x k i, p, q => by simp [reduceConst, countVars]
  | .op o cs i, p, q => by
    simp only [reduceConst]
    split
    · have := treeReduce_path l ve (.op o cs i) p q
      cases h1 : treeReduce l ve (.op o cs i) p <;> cases h2 : treeReduce l ve (.op o cs i) q <;>
        simp only [h1, h2, plain, Except.error.injEq, Except.ok.injEq, reduceCtorEq] at this ⊢
      · simp [this]
      · simp [this]
    · have := reduceConsts_path l ve cs p q 0 0
      exact ⟨by simp [this.1], this.2⟩
theorem reduceConsts_path (l : Op → List V → Except ε V) (ve : ε) : ∀ (ts : List (Tree V)) (p q : Path)
    (j k : Nat), (reduceConsts l ve ts p j).1 = (reduceConsts l ve ts q k).1 ∧
      (reduceConsts l ve ts p j).2.map (·.1) = (reduceConsts l ve ts q k).2.map (·.1)
  | [], p, q, j, k => ⟨rfl, rfl⟩
  | c :: ts, p, q, j, k => by
    have h := reduceConst_path l ve c (p ++ [j]) (q ++ [k])
    have h' := reduceConsts_path l ve ts p q (j + 1) (k + 1)
    simp only [reduceConsts]
    generalize reduceConst l ve c (p ++ [j]) = a at h ⊢
    generalize reduceConst l ve c (q ++ [k]) = b at h ⊢
    obtain ⟨a1, a2⟩ := a
    obtain ⟨b1, b2⟩ := b
    cases a2 <;> cases b2 <;> simp at h ⊢
    · exact ⟨⟨h, h'.1⟩, h'.2⟩
    · exact h
end

theorem reduced_loop (l : Op → List V → Except ε V) (ve : ε) : ∀ (ts : List (Tree V)) (p : Path) (k : Nat),
    loopResult (reduced l ve) ts =
      ((reduceConsts l ve ts p k).1, (reduceConsts l ve ts p k).2.map (·.1))
  | [], p, k => rfl
  | c :: ts, p, k => by
    have h := reduceConst_path l ve c [] (p ++ [k])
    have h' := reduced_loop l ve ts p (k + 1)
    simp only [loopResult, reduceConsts, reduced]
    rw [h.1, h.2]
    generalize reduceConst l ve c (p ++ [k]) = b
    obtain ⟨b1, b2⟩ := b
    cases b2 <;> simp [h']

theorem Cell.tok_holds {g : Nat → Option (Cell V)} {t : Tree V} {p : Nat} {S : List Nat}
    (h : Holds g t p S) : ∃ c, g p = some c ∧ c.tok = t.tok := by
  cases t with
  | const v i => exact ⟨_, h.1, rfl⟩
  | var x k i => exact ⟨_, h.1, rfl⟩
  | op o cs i => obtain ⟨ps, T, h1, _⟩ := h; exact ⟨_, h1, rfl⟩

/-- A tree without variables is reduced as a whole. -/
theorem reduced_closed (l : Op → List V → Except ε V) (ve : ε) {t : Tree V} (h : countVars t = 0) :
    reduced l ve t =
      match plain (treeReduce l ve t []) with
      | .error e => (t, some e)
      | .ok v => (.const v t.tok, none) := by
  cases t with
  | const v i => simp [reduced, reduceConst, countVars, treeReduce, plain, Tree.tok]
  | var x k i => simp [countVars] at h
  | op o cs i =>
    simp only [reduced, reduceConst, h, if_true]
    cases treeReduce l ve (.op o cs i) [] <;> simp [plain, Tree.tok]

theorem reduceConstants_spec (M : Malloc V) (l : Op → List V → Except ε V) (ve : ε) {m0 : Mem V}
    {U W : Nat → Prop} (t : Tree V) : ∀ {m : Mem V} {slot : Slot} {S : List Nat} {fuel : Nat},
    At m slot t S → Safe m0 U W m slot S → calls t < fuel →
    ∃ m' T, reduceConstants M l ve fuel m slot = .ok ((reduced l ve t).2, m') ∧
      Trade m slot S (reduced l ve t).1 T m' := by
  induction t using Tree.induct with
  | hv x k i =>
    intro m slot S fuel h hs hf
    cases fuel with
    | zero => simp at hf
    | succ n =>
      refine ⟨m, S, ?_, by simpa [reduced, reduceConst, countVars] using Trade.refl h⟩
      obtain ⟨p, h1, h2, _⟩ := h
      have hc := countVariables_spec (fuel := n) h2 (by omega)
      simp [reduceConstants, h1, hc, countVars, Mem.load, h2.1, reduced, reduceConst]
  | hc v i =>
    intro m slot S fuel h hs hf
    cases fuel with
    | zero => simp at hf
    | succ n =>
      have h' := h
      obtain ⟨p, h1, h2, _⟩ := h'
      have hc := countVariables_spec (fuel := n) h2 (by omega)
      have hr := reduceTree_spec l ve (fuel := n) [] h2 (by omega)
      obtain ⟨m', e1, e2⟩ := replaceTree_new (mA := (m.alloc M (.const v i)).2) (u := .const v i)
        (q := (m.alloc M (.const v i)).1) (T := [(m.alloc M (.const v i)).1]) (fuel := n) h
        ⟨by simp [Mem.get_alloc], rfl⟩ (by simp) (by simp [Mem.alloc_fresh])
        (fun a ha => by rw [Mem.get_alloc, if_neg (by simpa using ha)]) rfl (by omega)
      refine ⟨m', _, ?_, by simpa [reduced, reduceConst, countVars, treeReduce] using e2⟩
      simp [reduceConstants, h1, hc, countVars, Mem.load, h2.1, reduced, reduceConst, hr, treeReduce,
        plain, Cell.tok, e1]
  | ho o cs i ih =>
    intro m slot S fuel h hs hf
    cases fuel with
    | zero => simp at hf
    | succ n =>
      have h' := h
      obtain ⟨p, h1, h2, _⟩ := h'
      have hc := countVariables_spec (fuel := n) h2 (by omega)
      have hr := reduceTree_spec l ve (fuel := n) [] h2 (by omega)
      obtain ⟨cell, hcell, htok⟩ := Cell.tok_holds h2
      by_cases h0 : countVars (.op o cs i) = 0
      · rw [reduced_closed l ve h0]
        cases hv : plain (treeReduce l ve (.op o cs i) []) with
        | error e =>
          rw [hv] at hr
          exact ⟨m, S, by simp [reduceConstants, h1, hc, h0, hr], Trade.refl h⟩
        | ok v =>
          rw [hv] at hr
          obtain ⟨m', e1, e2⟩ := replaceTree_new (mA := (m.alloc M (.const v i)).2) (u := .const v i)
            (q := (m.alloc M (.const v i)).1) (T := [(m.alloc M (.const v i)).1]) (fuel := n) h
            ⟨by simp [Mem.get_alloc], rfl⟩ (by simp) (by simp [Mem.alloc_fresh])
            (fun a ha => by rw [Mem.get_alloc, if_neg (by simpa using ha)]) rfl (by omega)
          refine ⟨m', _, ?_, by simpa [Tree.tok] using e2⟩
          simp only [Tree.tok] at htok
          simp [reduceConstants, h1, hc, h0, hr, Mem.load, hcell, htok, e1]
      · simp only [calls] at hf
        obtain ⟨m', T, e1, e2⟩ := childLoop_spec (n := n) (ds := []) (F := reduced l ve) (ts := cs)
          (f := reduceConstants M l ve n)
          (fun c hc m sl S hA hS => ih c hc hA hS (by have := callsAll_mem hc; omega))
          (by simpa using h) hs (by have := callsAll_length cs; omega)
        rw [reduced_loop l ve cs [] 0] at e1 e2
        simp only [List.length_nil] at e1
        obtain ⟨ps, _, h2, _⟩ := h2
        refine ⟨m', T, ?_, by simpa [reduced, reduceConst, h0] using e2⟩
        simp [reduceConstants, h1, hc, h0, Mem.load, h2, e1, reduced, reduceConst]

/-! ## set_tok_index_for_all -/

mutual
theorem setToks_spec (k : Nat) : ∀ {t : Tree V} {m : Mem V} {p : Nat} {S : List Nat} {fuel : Nat},
    Holds m.get t p S → S.Nodup → calls t ≤ fuel →
    ∃ m', setToks k fuel m (some p) = .ok m' ∧ Holds m'.get (setTokAll k t) p S ∧
      (∀ a, a ∉ S → m'.get a = m.get a) ∧ m'.vars = m.vars
  | .const v i, m, p, S, fuel, ⟨h1, h2⟩, _, hf => by
    cases fuel with
    | zero => simp [calls] at hf
    | succ n =>
      refine ⟨m.put p (.const v k), by simp [setToks, h1], ⟨by simp [Mem.get_put m h1], h2⟩, ?_, rfl⟩
      intro a ha
      rw [Mem.get_put m h1, if_neg (fun e => ha (by simp [h2, e]))]
  | .var x y i, m, p, S, fuel, ⟨h1, h2⟩, _, hf => by
    cases fuel with
    | zero => simp [calls] at hf
    | succ n =>
      refine ⟨m.put p (.var x y k), by simp [setToks, h1], ⟨by simp [Mem.get_put m h1], h2⟩, ?_, rfl⟩
      intro a ha
      rw [Mem.get_put m h1, if_neg (fun e => ha (by simp [h2, e]))]
  | .op o cs i, m, p, S, fuel, ⟨ps, T, h1, h2, h3⟩, hn, hf => by
    cases fuel with
    | zero => simp [calls] at hf
    | succ n =>
      rw [h3, List.nodup_cons] at hn
      have hg := Mem.get_put m h1 (.op o (ps.map some) k)
      obtain ⟨m', e1, e2, e3, e4⟩ := setToksChildren_spec k (n := n) (pre := []) (p := p)
        (m := m.put p (.op o (ps.map some) k)) (o := o) (i := k)
        (h2.congr fun a ha => by
          have : a ≠ p := fun e => hn.1 (e ▸ ha)
          rw [hg, if_neg this]) hn.2
        (by rw [hg, if_pos rfl]; rfl) hn.1 (by simp only [calls] at hf; omega)
      refine ⟨m', by simpa [setToks, h1] using e1, ⟨ps, T, ?_, e2, h3⟩, ?_, e4⟩
      · rw [e3 p hn.1, hg, if_pos rfl]
      · intro a ha
        simp only [h3, List.mem_cons, not_or] at ha
        rw [e3 a ha.2, hg, if_neg ha.1]
theorem setToksChildren_spec (k : Nat) : ∀ {ts : List (Tree V)} {m : Mem V} {p : Nat} {ps S : List Nat}
    {pre : List (Option Nat)} {o : Op} {i n : Nat},
    HoldsAll m.get ts ps S → S.Nodup → m.get p = some (.op o (pre ++ ps.map some) i) → p ∉ S →
    callsAll ts ≤ n →
    ∃ m', setToksChildren k n m p pre.length = .ok m' ∧ HoldsAll m'.get (setTokAlls k ts) ps S ∧
      (∀ a, a ∉ S → m'.get a = m.get a) ∧ m'.vars = m.vars
  | [], m, p, ps, S, pre, o, i, n, h, _, hp, _, hf => by
    obtain ⟨rfl, rfl⟩ := h
    cases n with
    | zero => simp [callsAll] at hf
    | succ n => exact ⟨m, by simp [setToksChildren, hp], ⟨rfl, rfl⟩, by simp, rfl⟩
  | c :: cs, m, p, ps, S, pre, o, i, n, ⟨q, qs, S1, S2, h1, h2, h3, h4⟩, hn, hp, hpS, hf => by
    cases n with
    | zero => simp [callsAll] at hf
    | succ n =>
      subst h1 h2
      rw [List.nodup_append] at hn
      simp only [List.mem_append, not_or] at hpS
      simp only [callsAll] at hf
      obtain ⟨m1, e1, e2, e3, e4⟩ := setToks_spec k (fuel := n) h3 hn.1 (by omega)
      obtain ⟨m2, f1, f2, f3, f4⟩ := setToksChildren_spec k (n := n) (pre := pre ++ [some q]) (p := p)
        (o := o) (i := i) (h4.congr fun a ha => e3 a (fun h => hn.2.2 a h a ha rfl)) hn.2.1
        (by rw [e3 p hpS.1, hp]; simp) hpS.2 (by omega)
      refine ⟨m2, by simpa [setToksChildren, hp, e1] using f1,
        ⟨q, qs, S1, S2, rfl, rfl, e2.congr fun a ha => f3 a (fun h => hn.2.2 a ha a h rfl), f2⟩, ?_,
        f4.trans e4⟩
      intro a ha
      simp only [List.mem_append, not_or] at ha
      rw [f3 a ha.2, e3 a ha.1]
end

end Verif
