import Verif.Lemmas.SimplifyAll
import Verif.Lemmas.SessionTidy

/-!
# The simplification is defined, and where its errors are
-/

namespace Verif
open TreeProps MatchProps RewriteProps
variable {V ε : Type} {O : Op → Nat → Prop} {N : Str → Nat → Prop} {T : Nat → Prop}

/-- Neither undefined behaviour nor an end of the program by a failed assertion. -/
def Out.Fine {α : Type} : Out α → Prop
  | .ok _ => True
  | .hang => True
  | .defect => False
  | .ub => False

theorem Out.Fine.bind {α β : Type} {x : Out α} {f : α → Out β} (hx : x.Fine) (hf : ∀ a, x = .ok a → (f a).Fine) :
    (x >>= f).Fine := by
  cases x with
  | ok a => exact hf a rfl
  | hang => trivial
  | defect => exact hx
  | ub => exact hx

theorem mem_postorder {t : Tree V} : ∀ (p q : Path) (n : Tree V), (q, n) ∈ t.postorder p →
    ∃ q', q = p ++ q' ∧ t.deref q' = some n := by
  refine Tree.rec
    (motive_1 := fun t => ∀ (p q : Path) (n : Tree V), (q, n) ∈ t.postorder p → ∃ q', q = p ++ q' ∧ t.deref q' = some n)
    (motive_2 := fun l => ∀ (p : Path) (k : Nat) (q : Path) (n : Tree V), (q, n) ∈ Tree.postorders p k l →
      ∃ j q' c, q = p ++ (k + j) :: q' ∧ l[j]? = some c ∧ c.deref q' = some n)
    ?_ ?_ ?_ ?_ ?_ t
  · intro v i p q n h
    simp only [Tree.postorder, List.mem_singleton, Prod.mk.injEq] at h
    exact ⟨[], by simp [h.1], by rw [h.2]; rfl⟩
  · intro v x i p q n h
    simp only [Tree.postorder, List.mem_singleton, Prod.mk.injEq] at h
    exact ⟨[], by simp [h.1], by rw [h.2]; rfl⟩
  · intro o cs i ih p q n h
    simp only [Tree.postorder, List.mem_append, List.mem_singleton, Prod.mk.injEq] at h
    rcases h with h | h
    · obtain ⟨j, q', c, h1, h2, h3⟩ := ih p 0 q n h
      refine ⟨j :: q', by simpa using h1, ?_⟩
      simp only [Tree.deref, h2, h3]
    · exact ⟨[], by simp [h.1], by rw [h.2]; rfl⟩
  · intro p k q n h
    simp [Tree.postorders] at h
  · intro c cs h1 h2 p k q n h
    simp only [Tree.postorders, List.mem_append] at h
    rcases h with h | h
    · obtain ⟨q', g1, g2⟩ := h1 _ _ _ h
      exact ⟨0, q', c, by simpa using g1, by simp, g2⟩
    · obtain ⟨j, q', c', g1, g2, g3⟩ := h2 _ _ _ _ h
      exact ⟨j + 1, q', c', by rw [g1]; congr 2; omega, by simpa using g2, g3⟩

theorem Ground.not_var {t : Tree V} (h : Ground t) : ∀ n x i, t ≠ .var n x i := by
  rintro n x i rfl
  cases h

/-- Where an error of `tree_reduce_constant_subtrees` is. -/
theorem reduceConst_error (L : Op → List V → Except ε V) (ve : ε) (t : Tree V) : ∀ (p : Path) (e : ε) (q : Path),
    (reduceConst L ve t p).2 = some (e, q) →
    ∃ q' n, q = p ++ q' ∧ (reduceConst L ve t p).1.deref q' = some n ∧ t.deref q' = some n ∧ ∀ m x i, n ≠ .var m x i := by
  refine Tree.rec
    (motive_1 := fun t => ∀ (p : Path) (e : ε) (q : Path), (reduceConst L ve t p).2 = some (e, q) →
      ∃ q' n, q = p ++ q' ∧ (reduceConst L ve t p).1.deref q' = some n ∧ t.deref q' = some n ∧ ∀ m x i, n ≠ .var m x i)
    (motive_2 := fun l => ∀ (p : Path) (k : Nat) (e : ε) (q : Path), (reduceConsts L ve l p k).2 = some (e, q) →
      ∃ j q' n c c', q = p ++ (k + j) :: q' ∧ (reduceConsts L ve l p k).1[j]? = some c ∧ c.deref q' = some n ∧
        l[j]? = some c' ∧ c'.deref q' = some n ∧ ∀ m x i, n ≠ .var m x i)
    ?_ ?_ ?_ ?_ ?_ t
  · intro v i p e q h
    simp [reduceConst, countVars, treeReduce] at h
  · intro n x i p e q h
    simp [reduceConst, countVars] at h
  · intro o cs i ih p e q h
    by_cases hc : countVars (.op o cs i) = 0
    · have hs := (reduceConst_spec L ve (.op o cs i) p).2.2.2 e q h
      obtain ⟨n, h1, h2, -⟩ := hs
      obtain ⟨q', h3, h4⟩ := mem_postorder _ _ _ h1
      refine ⟨q', n, h3, ?_, h4, Ground.not_var h2⟩
      have : (reduceConst L ve (.op o cs i) p).1 = .op o cs i := by
        simp only [reduceConst, hc, if_true] at h ⊢
        split
        · rfl
        · rename_i r hr
          rw [hr] at h
          cases h
      rw [this, h4]
    · simp only [reduceConst, hc, if_false] at h ⊢
      obtain ⟨j, q', n, c, c', h1, h2, h3, h4, h5, h6⟩ := ih p 0 e q h
      refine ⟨j :: q', n, by simpa using h1, ?_, ?_, h6⟩
      · simp only [Tree.deref, h2, h3]
      · simp only [Tree.deref, h4, h5]
  · intro p k e q h
    simp [reduceConsts] at h
  · intro c cs h1 h2 p k e q h
    simp only [reduceConsts] at h ⊢
    split at h
    · rename_i c' e' he
      simp only [Option.some.injEq] at h
      subst h
      simp only
      obtain ⟨q', n, g1, g2, g3, g4⟩ := h1 (p ++ [k]) e q (by rw [he])
      rw [he] at g2
      exact ⟨0, q', n, c', c, by simpa using g1, by simp, g2, by simp, g3, g4⟩
    · rename_i c' he
      simp only at h ⊢
      obtain ⟨j, q', n, d, d', g1, g2, g3, g4, g5, g6⟩ := h2 p (k + 1) e q h
      exact ⟨j + 1, q', n, d, d', by rw [g1]; congr 2; omega, by simpa using g2, g3, by simpa using g4, g5, g6⟩

theorem findMatching_ok {eqV : V → V → Bool} {ck : Tree V → Bool} {pat : Pattern V} (t : Tree V) : ∀ p : Path,
    (∀ x ∈ t.preorder p, ∃ r, getMatching eqV ck pat x.2 = .ok r) → ∃ r, findMatching eqV ck pat t p = .ok r := by
  refine Tree.rec
    (motive_1 := fun t => ∀ p : Path,
      (∀ x ∈ t.preorder p, ∃ r, getMatching eqV ck pat x.2 = .ok r) → ∃ r, findMatching eqV ck pat t p = .ok r)
    (motive_2 := fun l => ∀ (p : Path) (k : Nat),
      (∀ x ∈ Tree.preorders p k l, ∃ r, getMatching eqV ck pat x.2 = .ok r) → ∃ r, findMatchings eqV ck pat l p k = .ok r)
    ?_ ?_ ?_ ?_ ?_ t
  · intro v i p h
    obtain ⟨r, hr⟩ := h (p, .const v i) (by simp [Tree.preorder])
    simp only at hr
    rw [findMatching, hr]
    cases r <;> exact ⟨_, rfl⟩
  · intro n x i p h
    obtain ⟨r, hr⟩ := h (p, .var n x i) (by simp [Tree.preorder])
    simp only at hr
    rw [findMatching, hr]
    cases r <;> exact ⟨_, rfl⟩
  · intro o cs i ih p h
    obtain ⟨r, hr⟩ := h (p, .op o cs i) (by simp [Tree.preorder])
    simp only at hr
    rw [findMatching, hr]
    cases r with
    | some m => exact ⟨_, rfl⟩
    | none => exact ih p 0 fun x hx => h x (by simp [Tree.preorder, hx])
  · intro p k _
    exact ⟨_, rfl⟩
  · intro c cs h1 h2 p k h
    obtain ⟨r, hr⟩ := h1 (p ++ [k]) fun x hx => h x (by simp [Tree.preorders, hx])
    rw [findMatchings, hr]
    cases r with
    | some m => exact ⟨_, rfl⟩
    | none => exact h2 p (k + 1) fun x hx => h x (by simp [Tree.preorders, hx])

/-- A rule all of whose applications are defined. -/
structure SafeRule (rule : RewriteRule V) : Prop where
  accepted : ∃ before cs after, Accepted before cs after rule ∧ ListsApart [] before ∧
    (∀ c ∈ cs, ∀ n ∈ c.varNames, n ∈ before.varNames) ∧ (∀ c ∈ cs, ∀ n x i, c = .var n x i → ¬ ListName n) ∧
    ∀ n x i, after = .var n x i → ¬ ListName n

theorem isListName_iff' {n : Str} : isListName n = true ↔ ListName n := by
  unfold isListName ListName
  cases n <;> simp

theorem SafeRule.apply {rule : RewriteRule V} (h : SafeRule rule) (eqV : V → V → Bool) (ck : Tree V → Bool)
    (u : Tree V) : ∃ r, applyRule eqV ck rule u = .ok r := by
  obtain ⟨before, cs, after, hr, h1, h2, h3, h4⟩ := h
  obtain ⟨hp, hs, hafter, hn⟩ := hr.spec
  have hg : ∀ s : Tree V, ∃ r, getMatching eqV ck rule.pattern s = .ok r := by
    intro s
    obtain ⟨ms, hms⟩ := C28_partial hp h1 h2 h3 eqV ck s
    unfold getMatching
    rw [hms]
    exact ⟨_, rfl⟩
  obtain ⟨r, hr'⟩ := findMatching_ok (eqV := eqV) (ck := ck) (pat := rule.pattern) u [] fun x _ => hg x.2
  have hf := findMatching_spec eqV ck rule.pattern u [] r hr'
  unfold applyRule
  rw [hr', Res.bind_ok]
  cases r with
  | none => exact ⟨_, rfl⟩
  | some r =>
    obtain ⟨p, m⟩ := r
    obtain ⟨pre, s, post, g1, -, g3⟩ := hf
    have hmem : (p, s) ∈ u.preorder [] := by rw [g1]; simp
    rw [deref_iff] at hmem
    dsimp only
    rw [hmem]
    obtain ⟨ms, hms, hm⟩ := getMatching_mem g3
    have he := extends_of hp eqV ck s (fun _ => True) (fun _ _ _ _ _ _ => trivial) trivial hms hm
    obtain ⟨w, hw⟩ := transformByMatching_op m (setTokAll s.tok (treeCopy rule.after)) (by
      rw [treeCopy_eq, setTokAll_eq, hafter, withTok_vars, withIds_vars]
      intro x hx
      obtain ⟨n, hn', rfl⟩ := List.mem_map.1 hx
      have := List.idxOf_lt_length_of_mem (hs.mem.2 (hn n hn'))
      have := hs.len
      simp only
      omega) (by
      intro n x i hx
      rw [treeCopy_eq, setTokAll_eq, hafter] at hx
      cases after with
      | const => cases hx
      | op => cases hx
      | var n' x' i' =>
        simp only [Tree.withIds, Tree.withTok, Tree.var.injEq] at hx
        obtain ⟨rfl, rfl, -⟩ := hx
        have hnl := h4 _ _ _ rfl
        have hnm := hn n' (by simp [Tree.names])
        obtain ⟨σ, hσ⟩ := C26_assignment before m
        have hg' := Assigns.get hs he.inv hσ n' hnm
        obtain ⟨-, h8⟩ := C26_sound hp eqV ck s hms hm hσ
        obtain ⟨y, hy⟩ := h8 n' (by rw [varNames_eq]; exact hnm) hnl
        rw [hg'] at hy
        exact ⟨y, Option.some.inj hy⟩)
    dsimp only
    rw [hw]
    exact ⟨_, rfl⟩

theorem SafeRule.first {rules : List (RewriteRule V)} (h : ∀ r ∈ rules, SafeRule r) (eqV : V → V → Bool)
    (ck : Tree V → Bool) (u : Tree V) : ∃ r, applyFirst eqV ck rules u = .ok r := by
  induction rules with
  | nil => exact ⟨_, rfl⟩
  | cons r rs ih =>
    obtain ⟨x, hx⟩ := (h r (by simp)).apply eqV ck u
    simp only [applyFirst, hx, Res.bind_ok]
    cases x with
    | some y => exact ⟨_, rfl⟩
    | none => exact ih fun r hr => h r (by simp [hr])

theorem SafeRule.loop {rules : List (RewriteRule V)} (h : ∀ r ∈ rules, SafeRule r) {D : Doubles V}
    {ck : Tree V → Bool} {L : Op → List V → Except ε V} {ve : ε} {fuel : Nat} (t : Tree V) :
    ∃ r, simplifyLoop D ck L ve rules fuel t = .ok r := by
  induction fuel generalizing t with
  | zero => exact ⟨_, rfl⟩
  | succ fuel ih =>
    obtain ⟨r, hr⟩ := SafeRule.first h D.eq ck t
    simp only [simplifyLoop, applyRuleset, applyLoop, hr, Res.bind_ok]
    cases r with
    | none => exact ⟨_, rfl⟩
    | some t' =>
      simp only [if_true, Res.bind_ok]
      exact ih _

namespace Machine
variable (M : Machine V ε)

theorem applySimplification_fine {rules : List (RewriteRule V)} (h : ∀ r ∈ rules, SafeRule r) (t : Tree V) :
    (M.applySimplification rules t).Fine := by
  obtain ⟨r, hr⟩ := SafeRule.loop h (D := M.dbl) (ck := M.checker) (L := M.arith) (ve := M.varErr) (fuel := M.fuel) t
  unfold applySimplification
  rw [hr]
  cases r <;> trivial

theorem applyAll_fine {rulesets : Nat → List (RewriteRule V)} {ks : List Nat}
    (h : ∀ k ∈ ks, ∀ r ∈ rulesets k, SafeRule r) (t : Tree V) : (M.applyAll rulesets ks t).Fine := by
  induction ks generalizing t with
  | nil => trivial
  | cons k ks ih =>
    simp only [applyAll]
    exact (M.applySimplification_fine (h k (by simp)) t).bind fun u _ => ih (fun k hk => h k (by simp [hk])) u

theorem fold_fine (t : Tree V) : (M.fold t).Fine := by
  unfold fold
  dsimp only
  split
  · rename_i e p h
    obtain ⟨q', n, h1, h2, -, -⟩ := reduceConst_error _ _ _ _ _ _ h
    rw [List.nil_append] at h1
    subst h1
    unfold errTok
    rw [h2]
    trivial
  · trivial

theorem fold_within {t : Tree V} (ht : Within O N T t) {r : Except (SimpErr ε × Nat) (Tree V)} (h : M.fold t = .ok r) :
    match r with
    | .ok u => Within O N T u
    | .error (e, i) => (∃ x, e = .listener x) ∧ T i := by
  unfold fold at h
  dsimp only at h
  split at h
  · rename_i e p he
    obtain ⟨q', n, h1, h2, -, h4⟩ := reduceConst_error _ _ _ _ _ _ he
    rw [List.nil_append] at h1
    subst h1
    unfold errTok at h
    rw [h2] at h
    cases h
    exact ⟨⟨e, rfl⟩, ((reduceConst_within M.arith M.varErr ht []).deref h2).tok h4⟩
  · cases h
    exact reduceConst_within M.arith M.varErr ht []

theorem _root_.Verif.NoPrime.ops {id : Nat} {t : Tree V} (h : NoPrime id t) (h1 : Verif.AllOps (fun o n => o.id = id → n = 1) t) :
    Verif.AllOps (fun o _ => o.id ≠ id) t := by
  induction h with
  | const => exact .const
  | var => exact .var
  | @op o cs i h _ ih =>
    obtain ⟨g1, g2⟩ := h1.child
    refine .op (fun e => ?_) fun c hc => ih c hc (g2 c hc)
    have := g1 e
    match cs, this with
    | [c], _ => simp [Tree.isPrime, e] at h

theorem _root_.Verif.Within.withIds {f : Str → Nat} {t : Tree V} (h : Within O N T t)
    (hf : ∀ n x, n ∈ t.names → N n x → N n (f n)) : Within O N T (t.withIds f) := by
  induction t using Tree.induct with
  | hc => exact h
  | hv n x i =>
    cases h with
    | var h => exact .var (hf n x (by simp [Tree.names]) h)
  | ho o cs i ih =>
    cases h with
    | op h1 h2 h3 =>
      have hm : ∀ l : List (Tree V), Tree.withIdsList f l = l.map (Tree.withIds f) := by
        intro l
        induction l with
        | nil => rfl
        | cons c l ih => simp [Tree.withIdsList, ih]
      simp only [Tree.withIds, hm]
      refine .op (by simpa using h1) h2 ?_
      simp only [List.mem_map, forall_exists_index, and_imp, forall_apply_eq_imp_iff₂]
      refine fun c hc => ih c hc (h3 c hc) fun n x hn => hf n x ?_
      simp only [Tree.names]
      exact namesList_mem.2 ⟨c, hc, hn⟩

theorem _root_.Verif.Within.names {t : Tree V} (h : Within O N T t) {n : Str} (hn : n ∈ t.names) : ∃ x, N n x := by
  induction t using Tree.induct with
  | hc => simp [Tree.names] at hn
  | hv m x i =>
    cases h with
    | var h =>
      simp only [Tree.names, List.mem_singleton] at hn
      exact ⟨x, hn ▸ h⟩
  | ho o cs i ih =>
    simp only [Tree.names] at hn
    obtain ⟨c, hc, hn⟩ := namesList_mem.1 hn
    exact ih c hc (h.child c hc) hn

theorem shorthand_within (hO : O Shipped.o3 2) (hN : ∀ n x, N n x → N n 0) (hz : N ['z'] 0) (fuel : Nat) (t : Tree V)
    (ht : Within O N T t) :
    let r := M.shorthandLoop ⟨primeTree, fun _ => []⟩ derivTree fuel t
    r = .hang ∨ (∃ u, r = .ok (.ok u) ∧ Within O N T u ∧ NoPrime 2 u) ∨
      ∃ i, r = .ok (.error (.malformedA, i)) ∧ T i := by
  intro r
  induction fuel generalizing t with
  | zero => exact .inl rfl
  | succ fuel ih =>
    have hx : isListName ['x'] = false := rfl
    have e : r = M.shorthandLoop ⟨primeTree, fun _ => []⟩ derivTree (fuel + 1) t := rfl
    simp only [Machine.shorthandLoop] at e
    rcases find_prime M.dbl.eq (fun _ => true) Shipped.o2 hx 0 1 t [] with ⟨h1, h2⟩ | ⟨q, s, h1, h2⟩
    · right
      left
      have h1' : findMatching M.dbl.eq (fun _ => true) ⟨primeTree, fun _ => []⟩ t [] = .ok none := h1
      rw [h1'] at e
      exact ⟨t, e, ht, h2⟩
    · have h1' : findMatching M.dbl.eq (fun _ => true) ⟨primeTree, fun _ => []⟩ t []
          = .ok (some (q, Matching.empty.bind 0 [s.first])) := h1
      rw [h1'] at e
      have hs : Within O N T s := Within.sub (h2.replaced s) ht
      have hp := h2.prime
      cases s with
      | const => cases hp
      | var => cases hp
      | op o cs m =>
        match cs, hp with
        | [c], hp =>
          have hc : Within O N T c := hs.child c (by simp)
          have hm : T m := by cases hs; assumption
          have hnames : (Tree.op o [c] m).names = c.names := by simp [Tree.names, Tree.namesList]
          simp only [Out.of, Out.bind_ok, h2.deref, Tree.tok] at e
          rcases listVariables_two (Tree.op o [c] m) with ⟨g1, g2⟩ | ⟨g1, g2, g3, -⟩
          · rw [if_pos g1] at e
            exact .inr (.inr ⟨m, e, hm⟩)
          · rw [if_neg g1] at e
            simp only [Matching.bind, if_true, Tree.first] at e
            rw [hnames] at g2 g3
            rcases listVariables_two c with ⟨-, k1⟩ | ⟨-, -, -, k2⟩
            · omega
            have htree : Within O N T (c.withIds (addNew [] c.names).idxOf) := by
              refine hc.withIds fun n x hn hx => ?_
              rcases addNew_one g2 with ⟨-, e⟩ | ⟨v, e1, e2, e3⟩
              · rw [e] at hn; cases hn
              · rw [e1, e3 n hn]
                simpa using hN _ _ (e3 n hn ▸ hx)
            rw [k2, g3] at e
            have key : ∀ v : Tree V, Within O N T v →
                derivReplacement derivTree (addNew [] c.names) m (c.withIds (addNew [] c.names).idxOf)
                  = .ok (.op Shipped.o3 [c.withIds (addNew [] c.names).idxOf, v] m) →
                r = .hang ∨ (∃ u, r = .ok (.ok u) ∧ Within O N T u ∧ NoPrime 2 u) ∨
                  ∃ i, r = .ok (.error (.malformedA, i)) ∧ T i := by
              intro v hv hr
              rw [hr] at e
              simp only [Out.of, Out.bind_ok] at e
              rw [e]
              refine ih _ (Within.replaced (h2.replaced _) (.op hO hm ?_) ht)
              simp only [List.mem_cons, List.not_mem_nil, or_false]
              rintro d (rfl | rfl)
              · exact htree
              · exact hv
            rcases addNew_one g2 with ⟨e1, e2⟩ | ⟨v, e1, e2, e3⟩
            · refine key (.var ['z'] 0 5) (.var hz) ?_
              rw [e1]
              simp [derivReplacement, treeCopy_eq, derivTree]
            · have hv : N v 0 := by
                obtain ⟨x, hx⟩ := hc.names e2
                exact hN _ _ hx
              refine key (.var v 0 0) (.var hv) ?_
              rw [e1]
              simp [derivReplacement, treeCopy_eq, derivTree]

/-- Where the search for wrong derivatives finds something. -/
theorem find_malformed (hD : M.dbl.Sane) {t : Tree V} (ht : Verif.AllOps (fun o _ => o.id < 58) t) :
    (findMatching M.dbl.eq M.checker malformedPattern t [] = .ok none ∧ ∀ x ∈ t.preorder [], x.2.isWrongDeriv = false) ∨
    ∃ p m n, findMatching M.dbl.eq M.checker malformedPattern t [] = .ok (some (p, m)) ∧ t.deref p = some n ∧
      n.isWrongDeriv = true := by
  have hsub : ∀ x ∈ t.preorder [], Verif.AllOps (fun o _ => o.id < 58) x.2 := by
    rintro ⟨p, x⟩ hx
    rw [deref_iff] at hx
    clear hD
    induction p generalizing t with
    | nil => cases t <;> (simp only [Tree.deref, Option.some.injEq] at hx; subst hx; exact ht)
    | cons k p ih =>
      cases t with
      | const => cases hx
      | var => cases hx
      | op o cs i =>
        simp only [Tree.deref] at hx
        split at hx
        · rename_i c hc
          exact ih (ht.child.2 c (List.mem_of_getElem? hc)) hx
        · cases hx
  obtain ⟨r, hr⟩ := findMatching_ok (eqV := M.dbl.eq) (ck := M.checker) (pat := malformedPattern) t [] (by
    intro x hx
    obtain ⟨m, hm⟩ := malformed_match hD (hsub x hx)
    exact ⟨_, hm⟩)
  have hs := findMatching_spec _ _ _ _ _ _ hr
  rw [hr]
  cases r with
  | none =>
    left
    refine ⟨rfl, fun x hx => ?_⟩
    obtain ⟨m, hm⟩ := malformed_match hD (hsub x hx)
    rw [hs x hx] at hm
    cases hw : x.2.isWrongDeriv with
    | false => rfl
    | true => rw [hw] at hm; simp at hm
  | some q =>
    right
    obtain ⟨p, m⟩ := q
    obtain ⟨pre, n, post, h1, -, h3⟩ := hs
    have hmem : (p, n) ∈ t.preorder [] := by rw [h1]; simp
    obtain ⟨m', hm⟩ := malformed_match hD (hsub _ hmem)
    refine ⟨p, m, n, rfl, deref_iff.1 hmem, ?_⟩
    simp only at hm
    rw [h3] at hm
    cases hw : n.isWrongDeriv with
    | false => rw [hw] at hm; simp at hm
    | true => rfl

theorem _root_.Verif.Tree.isWrongDeriv_not_var {t : Tree V} (h : t.isWrongDeriv = true) : ∀ n x i, t ≠ .var n x i := by
  rintro n x i rfl
  cases h

theorem _root_.Verif.Within.ops {t : Tree V} (h : Within O N T t) : Verif.AllOps O t := by
  induction h with
  | const => exact .const
  | var => exact .var
  | op h _ _ ih => exact .op h ih

theorem _root_.Verif.Within.of_ops {O' : Op → Nat → Prop} {t : Tree V} (h : Within O N T t) (h' : Verif.AllOps O' t) :
    Within O' N T t := by
  induction h with
  | const h => exact .const h
  | var h => exact .var h
  | op h h2 _ ih => exact .op h'.child.1 h2 fun c hc => ih c hc (h'.child.2 c hc)

theorem find_op {id : Nat} {t : Tree V} {p : Path} (h : findOpNode id t [] = some p) :
    ∃ o cs i, t.deref p = some (.op o cs i) ∧ o.id = id := by
  rw [findOpNode_spec, Option.map_eq_some_iff] at h
  obtain ⟨⟨q, n⟩, h1, rfl⟩ := h
  have h2 := List.mem_of_find?_eq_some h1
  have h3 := List.find?_some h1
  simp only at h3
  rw [deref_iff] at h2
  cases n with
  | const => cases h3
  | var => cases h3
  | op o cs i => exact ⟨o, cs, i, h2, by simpa using h3⟩

/-- What is asked of rules: applying them is defined, and the operators on their right sides are those of the
arithmetic context without `'`, and `deriv` only in the second set; in the first set also `count` (73),
but only if such operators are always rewritten. -/
structure _root_.Verif.RulesFit (s : Simp V) : Prop where
  safe : ∀ k, ∀ r ∈ s.rulesets k, SafeRule r
  good : ∀ k, ∀ r ∈ s.rulesets k, GoodRule (fun o n =>
    (BuiltIn o n ∧ o.id ≠ 2 ∧ (o.id = 3 → k = 1)) ∨ (k = 0 ∧ o.id = 73)) r
  count : ∀ (eqV : V → V → Bool) (ck : Tree V → Bool) (t : Tree V), applyFirst eqV ck (s.rulesets 0) t = .ok none →
    Verif.AllOps (fun o _ => o.id ≠ 73) t

/-- The operators of expressions without derivatives. -/
abbrev _root_.Verif.Simple (o : Op) (n : Nat) : Prop := BuiltIn o n ∧ o.id ≠ 2 ∧ o.id ≠ 3

theorem _root_.Verif.BuiltIn.prime {o : Op} {n : Nat} (h : BuiltIn o n) (ho : o.id = 2) : n = 1 := by
  obtain ⟨⟨q, hq, e⟩, ha⟩ := h
  rw [ho] at hq e
  have h2 : arithOps[2]? = some { Shipped.o2 with id := 0 } := by decide +kernel
  rw [h2] at hq
  cases hq
  rw [e] at ha
  rcases ha with ha | ha
  · cases ha
  · injection ha with ha
    exact ha.symm

theorem _root_.Verif.neg_builtIn : BuiltIn negOp 1 := ⟨⟨{ negOp with id := 0 }, by decide +kernel, rfl⟩, .inr rfl⟩

theorem _root_.Verif.deriv_builtIn : BuiltIn Shipped.o3 2 := ⟨⟨{ Shipped.o3 with id := 0 }, by decide +kernel, rfl⟩, .inr rfl⟩

theorem _root_.Verif.simplifyLoop_last {rules : List (RewriteRule V)} {D : Doubles V} {checker : Tree V → Bool}
    {L : Op → List V → Except ε V} {ve : ε} {fuel : Nat} {t t' : Tree V}
    (h : simplifyLoop D checker L ve rules fuel t = .ok (some t')) :
    ∃ u, applyFirst D.eq checker rules u = .ok none ∧ t' = replaceNegConsts D u := by
  induction fuel generalizing t with
  | zero => cases h
  | succ fuel ih =>
    simp only [simplifyLoop] at h
    obtain ⟨r, hr', h⟩ := Res.bind_eq_ok.1 h
    rcases applyRuleset_one hr' with ⟨h1, rfl⟩ | ⟨u, hu, rfl⟩
    · cases h
      exact ⟨t, h1, rfl⟩
    · exact ih h

theorem _root_.Verif.replaceNeg_ops (D : Doubles V) {P : Op → Nat → Prop} (hP : P negOp 1) {t : Tree V}
    (h : Verif.AllOps P t) : Verif.AllOps P (replaceNegConsts D t) := by
  have h1 : Within P (fun _ _ => True) (fun _ => True) t := by
    induction h with
    | const => exact .const trivial
    | var => exact .var trivial
    | op h _ ih => exact .op h trivial ih
  exact (replaceNeg_within D hP h1).ops

theorem without_within {s : Simp V} (hf : RulesFit s) (hO : O negOp 1)
    (hg : ∀ o n, Simple o n → O o n) {t u : Tree V} (ht : Within O N T t)
    (h : M.withoutDerivative s t = .ok u) : Within O N T u := by
  unfold withoutDerivative applyAll at h
  obtain ⟨t0, h0, h⟩ := Out.bind_eq_ok.1 h
  have hw0 : Within (fun o n => O o n ∨ o.id = 73) N T t0 := by
    refine M.applySimplification_within (fun r hr => (hf.good 0 r hr).mono fun o n ho => ?_) (.inl hO) h0
      (ht.mono (fun o n h => .inl h) (fun _ _ h => h) fun _ h => h)
    rcases ho with ⟨h1, h2, h3⟩ | ⟨-, h1⟩
    · exact .inl (hg o n ⟨h1, h2, fun e => absurd (h3 e) (by omega)⟩)
    · exact .inr h1
  have hw : Within O N T t0 := by
    refine hw0.of_ops ?_
    obtain ⟨u, hu, e⟩ := simplifyLoop_last (Out.ofFuel_ok h0)
    have h73 := replaceNeg_ops M.dbl (by decide) (hf.count _ _ _ hu)
    rw [← e] at h73
    exact (hw0.ops.and h73).mono fun o n h => h.1.resolve_right h.2
  refine M.applyAll_within (fun k hk r hr => (hf.good k r hr).mono fun o n ho => ?_) hO h hw
  rcases ho with ⟨h1, h2, h3⟩ | ⟨h1, -⟩
  · refine hg o n ⟨h1, h2, fun e => ?_⟩
    have := h3 e
    subst this
    simp at hk
  · subst h1
    simp at hk

theorem applyDerivatives_within (hD : M.dbl.Sane) {s : Simp V} (hl : Loaded s) (hf : RulesFit s)
    (hN : ∀ n x, N n x → N n 0) (hz : N ['z'] 0) {t : Tree V} (ht : Within BuiltIn N T t) :
    (M.applyDerivatives s t).Fine ∧ ∀ r, M.applyDerivatives s t = .ok r →
      match r with
      | .ok u => Within Simple N T u
      | .error (e, i) => (∀ x, e ≠ .listener x) ∧ T i := by
  unfold applyDerivatives
  rw [hl.before, hl.after, hl.malformed]
  dsimp only
  rcases M.shorthand_within (O := BuiltIn) deriv_builtIn hN hz M.fuel t ht with h | ⟨u, h, hu, hn⟩ | ⟨i, h, hi⟩
  · rw [h]
    exact ⟨trivial, fun r hr => by cases hr⟩
  · rw [h]
    simp only [Out.bind_ok]
    have hu2 : Within (fun o n => BuiltIn o n ∧ o.id ≠ 2) N T u := by
      refine hu.of_ops ?_
      exact (hu.ops.and (hn.ops (hu.ops.mono fun o n h => h.prime))).mono fun o n h => h
    rcases M.find_malformed hD (hu2.ops.mono fun o n h => h.1.id) with ⟨h1, -⟩ | ⟨p, m, n, h1, h2, h3⟩
    · rw [h1]
      simp only [Out.of, Out.bind_ok]
      have hfine := M.applySimplification_fine (hf.safe 1) u
      have hw : ∀ t2, M.applySimplification (s.rulesets 1) u = .ok t2 → Within (fun o n => BuiltIn o n ∧ o.id ≠ 2) N T t2 := by
        intro t2 ht2
        refine M.applySimplification_within (fun r hr => (hf.good 1 r hr).mono fun o n ho => ?_)
          ⟨neg_builtIn, by decide⟩ ht2 hu2
        rcases ho with ⟨g1, g2, -⟩ | ⟨g1, -⟩
        · exact ⟨g1, g2⟩
        · omega
      cases hs : M.applySimplification (s.rulesets 1) u with
      | hang => exact ⟨trivial, fun r hr => by cases hr⟩
      | defect => rw [hs] at hfine; exact hfine.elim
      | ub => rw [hs] at hfine; exact hfine.elim
      | ok t2 =>
        have hw2 := hw t2 hs
        simp only [Out.bind_ok, derivTree, Tree.rootOp]
        cases ho : findOpNode Shipped.o3.id t2 [] with
        | none =>
          refine ⟨trivial, fun r hr => ?_⟩
          cases hr
          exact hw2.of_ops ((hw2.ops.and (findOpNode_none ho)).mono fun o n h => ⟨h.1.1, h.1.2, h.2⟩)
        | some p =>
          obtain ⟨o, cs, i, g1, -⟩ := find_op ho
          simp only [errTok, g1]
          refine ⟨trivial, fun r hr => ?_⟩
          cases hr
          exact ⟨fun x hx => (by cases hx), (hw2.deref g1).tok fun n x i h => by cases h⟩
    · rw [h1]
      simp only [Out.of, Out.bind_ok, errTok, h2]
      refine ⟨trivial, fun r hr => ?_⟩
      cases hr
      exact ⟨fun x hx => (by cases hx), (hu2.deref h2).tok (Tree.isWrongDeriv_not_var h3)⟩
  · rw [h]
    refine ⟨trivial, fun r hr => ?_⟩
    cases hr
    exact ⟨fun x hx => (by cases hx), hi⟩

theorem simplify_within (hD : M.dbl.Sane) {s : Simp V} (hl : Loaded s) (hf : RulesFit s)
    (hN : ∀ n x, N n x → N n 0) (hz : N ['z'] 0) {t : Tree V} (ht : Within BuiltIn N T t) :
    (M.simplify s t).Fine ∧ ∀ r, M.simplify s t = .ok r →
      match r with
      | .ok u => Within Simple N T u
      | .error (_, i) => T i := by
  unfold simplify
  rw [hl.init]
  simp only [Bool.not_true, Bool.false_eq_true, if_false]
  have ht1 := reduceConst_within M.arith M.varErr ht []
  have hw : ∀ t, (M.withoutDerivative s t).Fine := fun t => M.applyAll_fine (fun k _ => hf.safe k) t
  have key : ∀ t1, M.withoutDerivative s (reduceConst M.arith M.varErr t []).1 = .ok t1 → Within BuiltIn N T t1 :=
    fun t1 h1 => M.without_within hf neg_builtIn (fun o n h => h.1) ht1 h1
  refine ⟨(hw _).bind fun t1 h1 => ?_, fun r hr => ?_⟩
  · obtain ⟨g1, g2⟩ := M.applyDerivatives_within hD hl hf hN hz (key t1 h1)
    refine g1.bind fun x hx => ?_
    cases x with
    | error e => trivial
    | ok t2 =>
      refine (hw _).bind fun t3 h3 => (M.fold_fine t3).bind fun y hy => ?_
      cases y <;> trivial
  · obtain ⟨t1, h1, hr⟩ := Out.bind_eq_ok.1 hr
    obtain ⟨x, hx, hr⟩ := Out.bind_eq_ok.1 hr
    obtain ⟨-, g2⟩ := M.applyDerivatives_within hD hl hf hN hz (key t1 h1)
    have g2 := g2 x hx
    cases x with
    | error e => cases hr; exact g2.2
    | ok t2 =>
      obtain ⟨t3, h3, hr⟩ := Out.bind_eq_ok.1 hr
      obtain ⟨y, hy, hr⟩ := Out.bind_eq_ok.1 hr
      have g3 := M.without_within hf ⟨neg_builtIn, by decide⟩ (fun o n h => h) g2 h3
      have g4 := M.fold_within g3 hy
      cases y with
      | error e => cases hr; exact g4.2
      | ok t4 => cases hr; exact replaceNeg_within M.dbl ⟨neg_builtIn, by decide⟩ g4

end Machine
end Verif
