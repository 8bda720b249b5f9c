import Verif.Model.TreeUtil
import Verif.Spec.Trees
import Mathlib.Data.List.Forall2

/-!
# Lemmas about the tree utilities
-/

namespace Verif
variable {V ε : Type}

theorem forall2_iff {α β : Type} {R : α → β → Prop} {as : List α} {bs : List β} :
    List.Forall₂ R as bs ↔ ∃ hl : as.length = bs.length,
      ∀ k (hk : k < as.length), R as[k] (bs[k]'(hl ▸ hk)) := by
  rw [List.forall₂_iff_get]
  constructor
  · rintro ⟨hl, h⟩
    exact ⟨hl, fun k hk => h k hk (hl ▸ hk)⟩
  · rintro ⟨hl, h⟩
    exact ⟨hl, fun k hk _ => h k hk⟩

/-! ## Relations through `Forall₂` -/

theorem SameExpr.op_iff {eqV : V → V → Bool} {o : Op} {cs ds : List (Tree V)} {i j : Nat}
    (h : List.Forall₂ (SameExpr eqV) cs ds) : SameExpr eqV (.op o cs i) (.op o ds j) := by
  obtain ⟨hl, h⟩ := forall2_iff.1 h
  exact .op hl h

theorem Subst.op_iff {σ : Str → Option (Tree V)} {o : Op} {cs ds : List (Tree V)} {i : Nat}
    (h : List.Forall₂ (Subst σ) cs ds) : Subst σ (.op o cs i) (.op o ds i) := by
  obtain ⟨hl, h⟩ := forall2_iff.1 h
  exact .op hl h

theorem Means.op_iff {L : Op → List V → Except ε V} {σ : Str → Option V} {o : Op}
    {cs : List (Tree V)} {i : Nat} {v : V} :
    Means L σ (.op o cs i) v ↔ ∃ vs, List.Forall₂ (Means L σ) cs vs ∧ L o vs = .ok v := by
  constructor
  · intro h
    cases h with
    | op hl h1 h2 => exact ⟨_, forall2_iff.2 ⟨hl, h1⟩, h2⟩
  · rintro ⟨vs, h1, h2⟩
    obtain ⟨hl, h⟩ := forall2_iff.1 h1
    exact .op hl h h2

theorem Blame.op_iff {L : Op → List V → Except ε V} {ve : ε} {o : Op}
    {cs : List (Tree V)} {i : Nat} {e : ε} :
    Blame L ve (.op o cs i) e ↔
      ∃ vs, List.Forall₂ (Means L fun _ => none) cs vs ∧ L o vs = .error e := by
  constructor
  · intro h
    cases h with
    | op hl h1 h2 => exact ⟨_, forall2_iff.2 ⟨hl, h1⟩, h2⟩
  · rintro ⟨vs, h1, h2⟩
    obtain ⟨hl, h⟩ := forall2_iff.1 h1
    exact .op hl h h2

theorem forall2_unique {α β : Type} {R : α → β → Prop} {as : List α}
    (h : ∀ a ∈ as, ∀ b b', R a b → R a b' → b = b') {bs bs' : List β}
    (h1 : List.Forall₂ R as bs) (h2 : List.Forall₂ R as bs') : bs = bs' := by
  induction h1 generalizing bs' with
  | nil => cases h2; rfl
  | cons a b ih =>
    cases h2 with
    | cons a' b' =>
      rw [h _ (by simp) _ _ a a', ih (fun x hx => h x (by simp [hx])) b']

theorem Means.unique {L : Op → List V → Except ε V} {σ : Str → Option V} (t : Tree V) {v w : V}
    (h1 : Means L σ t v) (h2 : Means L σ t w) : v = w := by
  induction t using Tree.induct generalizing v w with
  | hc => cases h1; cases h2; rfl
  | hv =>
    cases h1 with
    | var h1 => cases h2 with
      | var h2 => rw [h1] at h2; cases h2; rfl
  | ho o cs i ih =>
    obtain ⟨vs, g1, g2⟩ := Means.op_iff.1 h1
    obtain ⟨ws, g3, g4⟩ := Means.op_iff.1 h2
    have := forall2_unique (fun a ha b b' => ih a ha) g1 g3
    subst this
    rw [g2] at g4
    cases g4
    rfl

/-! ## Copy and comparison -/

theorem treeCopy_eq (t : Tree V) : treeCopy t = t := by
  refine Tree.rec (motive_1 := fun t => treeCopy t = t) (motive_2 := fun l => treeCopies l = l)
    (fun v i => rfl) (fun n x i => rfl) ?_ rfl ?_ t
  · intro o cs i ih
    simp only [treeCopy, ih]
  · intro c cs h1 h2
    simp only [treeCopies, h1, h2]

theorem treeCopies_eq (l : List (Tree V)) : treeCopies l = l := by
  induction l with
  | nil => rfl
  | cons c cs ih => simp [treeCopies, treeCopy_eq, ih]

theorem map_treeCopy (l : List (Tree V)) : l.map treeCopy = l := by
  have : (treeCopy : Tree V → Tree V) = id := funext treeCopy_eq
  rw [this, List.map_id]

theorem childrenEqual_iff {eqV : V → V → Bool} {cs ds : List (Tree V)} (hl : cs.length = ds.length) :
    childrenEqual eqV cs ds = true ↔ List.Forall₂ (fun a b => treeEquals eqV a b = true) cs ds := by
  induction cs generalizing ds with
  | nil =>
    cases ds with
    | nil => simp [childrenEqual]
    | cons d ds => cases hl
  | cons c cs ih =>
    cases ds with
    | nil => cases hl
    | cons d ds => simp [childrenEqual, ih (by simpa using hl)]

theorem treeEquals_op {eqV : V → V → Bool} {o p : Op} {cs ds : List (Tree V)} {i j : Nat} :
    treeEquals eqV (.op o cs i) (.op p ds j) = true ↔
      o.id = p.id ∧ List.Forall₂ (fun a b => treeEquals eqV a b = true) cs ds := by
  simp only [treeEquals, Bool.and_eq_true, beq_iff_eq]
  constructor
  · rintro ⟨⟨h1, h2⟩, h3⟩
    exact ⟨h1, (childrenEqual_iff h2).1 h3⟩
  · rintro ⟨h1, h2⟩
    have := h2.length_eq
    exact ⟨⟨h1, this⟩, (childrenEqual_iff this).2 h2⟩

/-! ## Variables -/

mutual
/-- Names of variables by recursion. -/
def Tree.names : Tree V → List Str
  | .const _ _ => []
  | .var n _ _ => [n]
  | .op _ cs _ => Tree.namesList cs
def Tree.namesList : List (Tree V) → List Str
  | [] => []
  | c :: cs => Tree.names c ++ Tree.namesList cs
end

theorem varNames_aux (t : Tree V) : ∀ p, ((t.preorder p).filterMap fun x => match x.2 with
    | .var n _ _ => some n
    | _ => none) = t.names := by
  refine Tree.rec
    (motive_1 := fun t => ∀ p, ((t.preorder p).filterMap fun x => match x.2 with
      | .var n _ _ => some n
      | _ => none) = t.names)
    (motive_2 := fun l => ∀ p k, ((Tree.preorders p k l).filterMap fun x => match x.2 with
      | .var n _ _ => some n
      | _ => none) = Tree.namesList l)
    ?_ ?_ ?_ ?_ ?_ t
  · intro v i p; rfl
  · intro n x i p; rfl
  · intro o cs i ih p
    simp only [Tree.preorder, List.filterMap_cons, Tree.names, ih]
  · intro p k; rfl
  · intro c cs h1 h2 p k
    simp only [Tree.preorders, List.filterMap_append, Tree.namesList, h1, h2]

theorem varNames_eq (t : Tree V) : t.varNames = t.names := varNames_aux t []

theorem namesList_mem {l : List (Tree V)} {n : Str} :
    n ∈ Tree.namesList l ↔ ∃ c ∈ l, n ∈ c.names := by
  induction l with
  | nil => simp [Tree.namesList]
  | cons c cs ih => simp [Tree.namesList, ih]

theorem countVars_eq (t : Tree V) : countVars t = t.names.length := by
  refine Tree.rec (motive_1 := fun t => countVars t = t.names.length)
    (motive_2 := fun l => countVarsList l = (Tree.namesList l).length) ?_ ?_ ?_ ?_ ?_ t
  · intro v i; rfl
  · intro n x i; rfl
  · intro o cs i ih; exact ih
  · rfl
  · intro c cs h1 h2
    simp [countVarsList, Tree.namesList, h1, h2]

theorem ground_iff (t : Tree V) : Ground t ↔ t.names = [] := by
  induction t using Tree.induct with
  | hc => simp [Tree.names, Ground.const]
  | hv => simp [Tree.names]; intro h; cases h
  | ho o cs i ih =>
    constructor
    · intro h
      cases h with
      | op h =>
        simp only [Tree.names]
        rw [List.eq_nil_iff_forall_not_mem]
        intro n hn
        obtain ⟨c, hc, hn⟩ := namesList_mem.1 hn
        rw [(ih c hc).1 (h c hc)] at hn
        cases hn
    · intro h
      refine .op fun c hc => (ih c hc).2 ?_
      rw [List.eq_nil_iff_forall_not_mem]
      intro n hn
      have : n ∈ Tree.namesList cs := namesList_mem.2 ⟨c, hc, hn⟩
      simp only [Tree.names] at h
      rw [h] at this
      cases this

/-! ## Listing of variables -/

mutual
/-- The tree with ids of variables given by name. -/
def Tree.withIds (f : Str → Nat) : Tree V → Tree V
  | .const v i => .const v i
  | .var n _ i => .var n (f n) i
  | .op o cs i => .op o (Tree.withIdsList f cs) i
def Tree.withIdsList (f : Str → Nat) : List (Tree V) → List (Tree V)
  | [] => []
  | c :: cs => Tree.withIds f c :: Tree.withIdsList f cs
end

theorem withIds_congr (f g : Str → Nat) (t : Tree V) (h : ∀ n ∈ t.names, f n = g n) :
    t.withIds f = t.withIds g := by
  revert h
  refine Tree.rec (motive_1 := fun t => (∀ n ∈ t.names, f n = g n) → t.withIds f = t.withIds g)
    (motive_2 := fun l => (∀ n ∈ Tree.namesList l, f n = g n) →
      Tree.withIdsList f l = Tree.withIdsList g l) ?_ ?_ ?_ ?_ ?_ t
  · intro v i _; rfl
  · intro n x i h; simp only [Tree.withIds, h n (by simp [Tree.names])]
  · intro o cs i ih h; simp only [Tree.withIds, ih h]
  · intro _; rfl
  · intro c cs h1 h2 h
    simp only [Tree.withIdsList, h1 fun n hn => h n (by simp [Tree.namesList, hn]),
      h2 fun n hn => h n (by simp [Tree.namesList, hn])]

theorem withIdsList_congr (f g : Str → Nat) (l : List (Tree V))
    (h : ∀ n ∈ Tree.namesList l, f n = g n) : Tree.withIdsList f l = Tree.withIdsList g l := by
  induction l with
  | nil => rfl
  | cons c cs ih =>
    simp only [Tree.withIdsList, withIds_congr f g c fun n hn => h n (by simp [Tree.namesList, hn]),
      ih fun n hn => h n (by simp [Tree.namesList, hn])]

/-- Append the names not seen yet. -/
def addNew (vs : List Str) : List Str → List Str
  | [] => vs
  | n :: ns => addNew (if n ∈ vs then vs else vs ++ [n]) ns

theorem addNew_append (vs a b : List Str) : addNew vs (a ++ b) = addNew (addNew vs a) b := by
  induction a generalizing vs with
  | nil => rfl
  | cons n a ih => simp only [List.cons_append, addNew, ih]

theorem addNew_prefix (vs a : List Str) : vs <+: addNew vs a := by
  induction a generalizing vs with
  | nil => exact List.prefix_refl _
  | cons n a ih =>
    simp only [addNew]
    split
    · exact ih vs
    · exact (List.prefix_append vs [n]).trans (ih _)

theorem addNew_mem {vs a : List Str} {n : Str} : n ∈ addNew vs a ↔ n ∈ vs ∨ n ∈ a := by
  induction a generalizing vs with
  | nil => simp [addNew]
  | cons m a ih =>
    simp only [addNew, ih]
    split
    · rename_i h
      simp only [List.mem_cons]
      constructor
      · rintro (h | h) <;> simp [h]
      · rintro (h | rfl | h)
        · exact .inl h
        · exact .inl (by assumption)
        · exact .inr h
    · simp [or_assoc]

theorem addNew_nodup {vs a : List Str} (h : vs.Nodup) : (addNew vs a).Nodup := by
  induction a generalizing vs with
  | nil => exact h
  | cons n a ih =>
    simp only [addNew]
    split
    · exact ih h
    · rename_i hn
      refine ih ?_
      rw [List.nodup_append]
      refine ⟨h, by simp, ?_⟩
      intro x hx y hy
      simp only [List.mem_singleton] at hy
      subst hy
      rintro rfl
      exact hn hx

theorem idxOf_prefix {a b : List Str} (h : a <+: b) {n : Str} (hn : n ∈ a) : b.idxOf n = a.idxOf n := by
  obtain ⟨c, rfl⟩ := h
  exact List.idxOf_append_of_mem hn

theorem idxOf?_eq (vs : List Str) (n : Str) :
    vs.idxOf? n = if n ∈ vs then some (vs.idxOf n) else none := by
  split
  · rename_i h
    rw [List.idxOf?_eq_some_iff]
    refine ⟨List.idxOf_lt_length_of_mem h, by simp, ?_⟩
    intro j hj
    have := List.not_of_lt_findIdx (p := (· == n)) hj
    simpa using this
  · rename_i h
    rw [List.idxOf?_eq_none_iff]
    exact h

/-- What `list_variables_rec` computes. -/
theorem listVarsRec_spec (buf : Nat) (t : Tree V) : ∀ vs, vs.length ≤ buf →
    if (addNew vs t.names).length ≤ buf then
      listVarsRec buf t vs true = (t.withIds (addNew vs t.names).idxOf, addNew vs t.names, true)
    else ∃ t', listVarsRec buf t vs true = (t', (addNew vs t.names).take buf, false) := by
  have off : ∀ (t : Tree V) vs, listVarsRec buf t vs false = (t, vs, false) := by
    intro t vs
    cases t <;> simp [listVarsRec]
  have offs : ∀ (l : List (Tree V)) vs, listVarsRecs buf l vs false = (l, vs, false) := by
    intro l
    induction l with
    | nil => intro vs; rfl
    | cons c cs ih => intro vs; simp only [listVarsRecs, off, ih]
  refine Tree.rec
    (motive_1 := fun t => ∀ vs, vs.length ≤ buf →
      if (addNew vs t.names).length ≤ buf then
        listVarsRec buf t vs true = (t.withIds (addNew vs t.names).idxOf, addNew vs t.names, true)
      else ∃ t', listVarsRec buf t vs true = (t', (addNew vs t.names).take buf, false))
    (motive_2 := fun l => ∀ vs, vs.length ≤ buf →
      if (addNew vs (Tree.namesList l)).length ≤ buf then
        listVarsRecs buf l vs true =
          (Tree.withIdsList (addNew vs (Tree.namesList l)).idxOf l, addNew vs (Tree.namesList l), true)
      else ∃ l', listVarsRecs buf l vs true = (l', (addNew vs (Tree.namesList l)).take buf, false))
    ?_ ?_ ?_ ?_ ?_ t
  · intro v i vs hv
    simp [Tree.names, addNew, hv, listVarsRec, Tree.withIds]
  · intro n x i vs hv
    simp only [Tree.names, addNew, listVarsRec, if_true]
    rw [idxOf?_eq]
    by_cases hn : n ∈ vs
    · simp [hn, hv, Tree.withIds]
    · simp only [hn, if_false, List.length_append, List.length_singleton]
      by_cases hb : vs.length < buf
      · rw [if_pos (by omega), if_pos hb]
        have : (vs ++ [n]).idxOf n = vs.length := by
          rw [List.idxOf_append_of_notMem hn]
          simp
        simp only [Tree.withIds, this]
      · rw [if_neg (by omega), if_neg hb]
        have : buf = vs.length := by omega
        exact ⟨.var n x i, by rw [this]; simp⟩
  · intro o cs i ih vs hv
    have := ih vs hv
    simp only [Tree.names, listVarsRec, if_true]
    split
    · rename_i h
      rw [if_pos h] at this
      simp only [this, Tree.withIds]
    · rename_i h
      rw [if_neg h] at this
      obtain ⟨l', hl'⟩ := this
      exact ⟨.op o l' i, by rw [hl']⟩
  · intro vs hv
    simp [Tree.namesList, addNew, hv, listVarsRecs, Tree.withIdsList]
  · intro c cs h1 h2 vs hv
    have k1 := h1 vs hv
    simp only [Tree.namesList, addNew_append, listVarsRecs]
    by_cases hc : (addNew vs c.names).length ≤ buf
    · rw [if_pos hc] at k1
      rw [k1]
      have k2 := h2 (addNew vs c.names) hc
      split
      · rename_i h
        rw [if_pos h] at k2
        simp only [k2, Tree.withIdsList]
        have : c.withIds (addNew vs c.names).idxOf
            = c.withIds (addNew (addNew vs c.names) (Tree.namesList cs)).idxOf := by
          apply withIds_congr
          intro n hn
          exact (idxOf_prefix (addNew_prefix _ _) (addNew_mem.2 (.inr hn))).symm
        rw [this]
      · rename_i h
        rw [if_neg h] at k2
        obtain ⟨l', hl'⟩ := k2
        simp only [hl']
        exact ⟨_, rfl⟩
    · rw [if_neg hc] at k1
      obtain ⟨t', ht'⟩ := k1
      have hlen : (addNew vs c.names).length ≤ (addNew (addNew vs c.names) (Tree.namesList cs)).length :=
        (addNew_prefix _ _).length_le
      rw [if_neg (by omega)]
      simp only [ht', offs]
      refine ⟨t' :: cs, ?_⟩
      · obtain ⟨s, hs⟩ := addNew_prefix (addNew vs c.names) (Tree.namesList cs)
        rw [← hs, List.take_append_of_le_length (by omega)]

/-! ## Evaluation -/

section Reduce
variable {L : Op → List V → Except ε V} {ve : ε}

/-- What `tree_reduce` computes. -/
theorem treeReduce_spec (L : Op → List V → Except ε V) (ve : ε) (t : Tree V) : ∀ p,
    match treeReduce L ve t p with
    | .ok v => Means L (fun _ => none) t v ∧
        ∀ q ∈ t.postorder p, ∃ w, Means L (fun _ => none) q.2 w
    | .error (e, q) => ∃ pre n post, t.postorder p = pre ++ (q, n) :: post ∧
        (∀ x ∈ pre, ∃ w, Means L (fun _ => none) x.2 w) ∧ Blame L ve n e := by
  refine Tree.rec
    (motive_1 := fun t => ∀ p, match treeReduce L ve t p with
      | .ok v => Means L (fun _ => none) t v ∧
          ∀ q ∈ t.postorder p, ∃ w, Means L (fun _ => none) q.2 w
      | .error (e, q) => ∃ pre n post, t.postorder p = pre ++ (q, n) :: post ∧
          (∀ x ∈ pre, ∃ w, Means L (fun _ => none) x.2 w) ∧ Blame L ve n e)
    (motive_2 := fun l => ∀ p k, match reduceArgs L ve l p k with
      | .ok vs => List.Forall₂ (Means L (fun _ => none)) l vs ∧
          ∀ q ∈ Tree.postorders p k l, ∃ w, Means L (fun _ => none) q.2 w
      | .error (e, q) => ∃ pre n post, Tree.postorders p k l = pre ++ (q, n) :: post ∧
          (∀ x ∈ pre, ∃ w, Means L (fun _ => none) x.2 w) ∧ Blame L ve n e)
    ?_ ?_ ?_ ?_ ?_ t
  · intro v i p
    simp only [treeReduce, Tree.postorder, List.mem_singleton, forall_eq]
    exact ⟨.const, v, .const⟩
  · intro n x i p
    exact ⟨[], _, [], rfl, by simp, .var⟩
  · intro o cs i ih p
    have h := ih p 0
    simp only [treeReduce, Tree.postorder]
    cases hr : reduceArgs L ve cs p 0 with
    | error e =>
      rw [hr] at h
      obtain ⟨pre, n, post, h1, h2, h3⟩ := h
      exact ⟨pre, n, post ++ [(p, .op o cs i)], by rw [h1]; simp, h2, h3⟩
    | ok vs =>
      rw [hr] at h
      simp only at h
      cases hl : L o vs with
      | error e =>
        simp only [hl]
        exact ⟨_, _, [], rfl, h.2, Blame.op_iff.2 ⟨vs, h.1, hl⟩⟩
      | ok v =>
        simp only [hl]
        have hm : Means L (fun _ => none) (.op o cs i) v := Means.op_iff.2 ⟨vs, h.1, hl⟩
        refine ⟨hm, ?_⟩
        intro q hq
        rcases List.mem_append.1 hq with hq | hq
        · exact h.2 q hq
        · simp only [List.mem_singleton] at hq
          subst hq
          exact ⟨v, hm⟩
  · intro p k
    simp [reduceArgs, Tree.postorders]
  · intro c cs h1 h2 p k
    have g1 := h1 (p ++ [k])
    have g2 := h2 p (k + 1)
    simp only [reduceArgs, Tree.postorders]
    cases hc : treeReduce L ve c (p ++ [k]) with
    | error e =>
      rw [hc] at g1
      obtain ⟨pre, n, post, e1, e2, e3⟩ := g1
      exact ⟨pre, n, post ++ Tree.postorders p (k + 1) cs, by rw [e1]; simp, e2, e3⟩
    | ok v =>
      rw [hc] at g1
      simp only at g1
      cases hr : reduceArgs L ve cs p (k + 1) with
      | error e =>
        rw [hr] at g2
        obtain ⟨pre, n, post, e1, e2, e3⟩ := g2
        refine ⟨c.postorder (p ++ [k]) ++ pre, n, post, by rw [e1]; simp, ?_, e3⟩
        intro x hx
        rcases List.mem_append.1 hx with hx | hx
        · exact g1.2 x hx
        · exact e2 x hx
      | ok vs =>
        rw [hr] at g2
        simp only at g2 ⊢
        refine ⟨.cons g1.1 g2.1, ?_⟩
        intro x hx
        rcases List.mem_append.1 hx with hx | hx
        · exact g1.2 x hx
        · exact g2.2 x hx

theorem Blame.not_means {t : Tree V} {e : ε} {w : V} (h : Blame L ve t e)
    (hm : Means L (fun _ => none) t w) : False := by
  cases t with
  | const => cases h
  | var => cases hm; rename_i h; cases h
  | op o cs i =>
    obtain ⟨vs, h1, h2⟩ := Blame.op_iff.1 h
    obtain ⟨ws, g1, g2⟩ := Means.op_iff.1 hm
    have := forall2_unique (fun a _ b b' => Means.unique a) h1 g1
    subst this
    rw [h2] at g2
    cases g2

theorem Blame.unique {t : Tree V} {e e' : ε} (h : Blame L ve t e) (h' : Blame L ve t e') : e = e' := by
  cases t with
  | const => cases h
  | var => cases h; cases h'; rfl
  | op o cs i =>
    obtain ⟨vs, h1, h2⟩ := Blame.op_iff.1 h
    obtain ⟨ws, g1, g2⟩ := Blame.op_iff.1 h'
    have := forall2_unique (fun a _ b b' => Means.unique a) h1 g1
    subst this
    rw [h2] at g2
    cases g2
    rfl

theorem self_mem_postorder (t : Tree V) (p : List Nat) : (p, t) ∈ t.postorder p := by
  cases t <;> simp [Tree.postorder]

/-- The value does not depend on the assignment if there are no variables. -/
theorem Means.ground {σ τ : Str → Option V} {t : Tree V} (hg : Ground t) {v : V}
    (h : Means L σ t v) : Means L τ t v := by
  induction h with
  | const => exact .const
  | var => cases hg
  | op hl _ h2 ih =>
    cases hg with
    | op hg => exact .op hl (fun k hk => ih k hk (hg _ (List.getElem_mem hk))) h2

/-- What `tree_reduce_constant_subtrees` computes. -/
theorem reduceConst_spec (L : Op → List V → Except ε V) (ve : ε) (t : Tree V) : ∀ p,
    (∀ σ v, Means L σ (reduceConst L ve t p).1 v ↔ Means L σ t v) ∧
    (reduceConst L ve t p).1.names = t.names ∧
    ((reduceConst L ve t p).2 = none →
      ∀ q ∈ (reduceConst L ve t p).1.preorder p, ∀ o cs i, q.2 = .op o cs i → ¬ Ground q.2) ∧
    ∀ e q, (reduceConst L ve t p).2 = some (e, q) → ∃ n, (q, n) ∈ t.postorder p ∧ Ground n ∧
      Blame L ve n e := by
  have sub : ∀ (t : Tree V) p, Ground t → ∀ q ∈ t.postorder p, Ground q.2 := by
    intro t
    refine Tree.rec
      (motive_1 := fun t => ∀ p, Ground t → ∀ q ∈ t.postorder p, Ground q.2)
      (motive_2 := fun l => ∀ p k, (∀ c ∈ l, Ground c) → ∀ q ∈ Tree.postorders p k l, Ground q.2)
      ?_ ?_ ?_ ?_ ?_ t
    · intro v i p h q hq
      simp only [Tree.postorder, List.mem_singleton] at hq
      subst hq; exact h
    · intro n x i p h; cases h
    · intro o cs i ih p h q hq
      simp only [Tree.postorder, List.mem_append, List.mem_singleton] at hq
      cases h with
      | op h =>
        rcases hq with hq | rfl
        · exact ih p 0 h q hq
        · exact .op h
    · intro p k _ q hq; cases hq
    · intro c cs h1 h2 p k h q hq
      simp only [Tree.postorders, List.mem_append] at hq
      rcases hq with hq | hq
      · exact h1 _ (h c (by simp)) q hq
      · exact h2 _ _ (fun c hc => h c (by simp [hc])) q hq
  have whole : ∀ (t : Tree V) p, Ground t → ∀ i,
      (∀ v, treeReduce L ve t p = .ok v → ∀ σ w, Means L σ (.const v i : Tree V) w ↔ Means L σ t w) ∧
      ∀ e q, treeReduce L ve t p = .error (e, q) → ∃ n, (q, n) ∈ t.postorder p ∧ Ground n ∧
        Blame L ve n e := by
    intro t p hg i
    have hs := treeReduce_spec L ve t p
    constructor
    · intro v hv σ w
      rw [hv] at hs
      have hm := hs.1.ground (τ := σ) hg
      constructor
      · intro h; cases h; exact hm
      · intro h
        rw [Means.unique t h hm]
        exact .const
    · intro e q he
      rw [he] at hs
      obtain ⟨pre, n, post, h1, -, h3⟩ := hs
      have hmem : (q, n) ∈ t.postorder p := by rw [h1]; simp
      exact ⟨n, hmem, sub t p hg _ hmem, h3⟩
  refine Tree.rec
    (motive_1 := fun t => ∀ p,
      (∀ σ v, Means L σ (reduceConst L ve t p).1 v ↔ Means L σ t v) ∧
      (reduceConst L ve t p).1.names = t.names ∧
      ((reduceConst L ve t p).2 = none →
        ∀ q ∈ (reduceConst L ve t p).1.preorder p, ∀ o cs i, q.2 = .op o cs i → ¬ Ground q.2) ∧
      ∀ e q, (reduceConst L ve t p).2 = some (e, q) → ∃ n, (q, n) ∈ t.postorder p ∧ Ground n ∧
        Blame L ve n e)
    (motive_2 := fun l => ∀ p k,
      (∀ σ vs, List.Forall₂ (Means L σ) (reduceConsts L ve l p k).1 vs ↔
        List.Forall₂ (Means L σ) l vs) ∧
      Tree.namesList (reduceConsts L ve l p k).1 = Tree.namesList l ∧
      ((reduceConsts L ve l p k).2 = none →
        ∀ q ∈ Tree.preorders p k (reduceConsts L ve l p k).1, ∀ o cs i, q.2 = .op o cs i → ¬ Ground q.2) ∧
      ∀ e q, (reduceConsts L ve l p k).2 = some (e, q) → ∃ n, (q, n) ∈ Tree.postorders p k l ∧ Ground n ∧
        Blame L ve n e)
    ?_ ?_ ?_ ?_ ?_ t
  · intro v i p
    simp [reduceConst, countVars, treeReduce, Tree.preorder]
  · intro n x i p
    simp [reduceConst, countVars, Tree.preorder]
  · intro o cs i ih p
    by_cases h0 : countVars (.op o cs i) = 0
    · have hn : (Tree.op o cs i).names = [] := by
        rw [countVars_eq] at h0
        exact List.length_eq_zero_iff.1 h0
      have hg : Ground (.op o cs i) := (ground_iff _).2 hn
      obtain ⟨w1, w2⟩ := whole _ p hg i
      simp only [reduceConst, h0, if_true]
      cases hr : treeReduce L ve (.op o cs i) p with
      | error e =>
        refine ⟨fun _ _ => Iff.rfl, rfl, fun h => (nomatch h), ?_⟩
        intro e' q h
        simp only [Option.some.injEq] at h
        rw [h] at hr
        exact w2 _ _ hr
      | ok v =>
        refine ⟨w1 v hr, hn.symm, ?_, fun e q h => (nomatch h)⟩
        intro _ q hq
        simp only [Tree.preorder, List.mem_singleton] at hq
        subst hq
        intro o cs i h
        cases h
    · obtain ⟨h1, h2, h3, h4⟩ := ih p 0
      simp only [reduceConst, h0, if_false]
      refine ⟨?_, h2, ?_, ?_⟩
      · intro σ v
        simp only [Means.op_iff, h1]
      · intro hok q hq
        simp only [Tree.preorder, List.mem_cons] at hq
        rcases hq with rfl | hq
        · intro o' cs' i' _ hg
          rw [ground_iff] at hg
          simp only [Tree.names, h2] at hg
          apply h0
          rw [countVars_eq]
          simp [Tree.names, hg]
        · exact h3 hok q hq
      · intro e q h
        obtain ⟨n, g1, g2⟩ := h4 e q h
        exact ⟨n, by simp [Tree.postorder, g1], g2⟩
  · intro p k
    simp [reduceConsts, Tree.preorders, Tree.namesList]
  · intro c cs h1 h2 p k
    obtain ⟨a1, a2, a3, a4⟩ := h1 (p ++ [k])
    obtain ⟨b1, b2, b3, b4⟩ := h2 p (k + 1)
    simp only [reduceConsts]
    revert a1 a2 a3 a4
    rcases reduceConst L ve c (p ++ [k]) with ⟨c', e'⟩
    cases e' with
    | some e' =>
      intro a1 a2 a3 a4
      simp only at *
      refine ⟨?_, ?_, fun h => (nomatch h), ?_⟩
      · intro σ vs
        cases vs with
        | nil => simp
        | cons v vs => simp only [List.forall₂_cons, a1]
      · simp only [Tree.namesList, a2]
      · intro e q h
        obtain ⟨n, g1, g2⟩ := a4 e q h
        exact ⟨n, by simp [Tree.postorders, g1], g2⟩
    | none =>
      intro a1 a2 a3 a4
      simp only at *
      refine ⟨?_, ?_, ?_, ?_⟩
      · intro σ vs
        cases vs with
        | nil => simp
        | cons v vs => simp only [List.forall₂_cons, a1, b1]
      · simp only [Tree.namesList, a2, b2]
      · intro hok q hq
        simp only [Tree.preorders, List.mem_append] at hq
        rcases hq with hq | hq
        · exact a3 trivial q hq
        · exact b3 hok q hq
      · intro e q h
        obtain ⟨n, g1, g2⟩ := b4 e q h
        exact ⟨n, by simp [Tree.postorders, g1], g2⟩

end Reduce

/-! ## Searching -/

/-- What `get_variable_nodes` computes. -/
theorem varNodes_spec (name : Str) (t : Tree V) : ∀ p buf pos,
    varNodes name t p buf pos =
      (((t.preorder p).filter fun x => x.2.isVar name).length,
       (((t.preorder p).filter fun x => x.2.isVar name).take buf).zipIdx pos |>.map fun x => (x.2, x.1.1)) := by
  refine Tree.rec
    (motive_1 := fun t => ∀ p buf pos, varNodes name t p buf pos =
      (((t.preorder p).filter fun x => x.2.isVar name).length,
       (((t.preorder p).filter fun x => x.2.isVar name).take buf).zipIdx pos |>.map fun x => (x.2, x.1.1)))
    (motive_2 := fun l => ∀ p k buf pos, varNodesList name l p k buf pos =
      (((Tree.preorders p k l).filter fun x => x.2.isVar name).length,
       (((Tree.preorders p k l).filter fun x => x.2.isVar name).take buf).zipIdx pos
         |>.map fun x => (x.2, x.1.1)))
    ?_ ?_ ?_ ?_ ?_ t
  · intro v i p buf pos
    simp [varNodes, Tree.preorder, Tree.isVar]
  · intro n x i p buf pos
    by_cases h : n = name
    · cases buf <;> simp [varNodes, Tree.preorder, Tree.isVar, h]
    · simp [varNodes, Tree.preorder, Tree.isVar, h]
  · intro o cs i ih p buf pos
    simp [varNodes, Tree.preorder, Tree.isVar, ih]
  · intro p k buf pos
    simp [varNodesList, Tree.preorders]
  · intro c cs h1 h2 p k buf pos
    simp only [varNodesList, Tree.preorders, h1, h2, List.filter_append, List.length_append]
    generalize (c.preorder (p ++ [k])).filter (fun x => x.2.isVar name) = A
    generalize (Tree.preorders p (k + 1) cs).filter (fun x => x.2.isVar name) = B
    have e : (if buf ≥ A.length then buf - A.length else 0) = buf - A.length := by
      split <;> omega
    rw [e, List.take_append, List.zipIdx_append, List.map_append]
    congr 2
    by_cases hb : A.length ≤ buf
    · rw [List.take_of_length_le hb]
    · have : buf - A.length = 0 := by omega
      rw [this]
      simp

/-- What `find_op` computes. -/
theorem findOpNode_spec (id : Nat) (t : Tree V) : ∀ p,
    findOpNode id t p = ((t.preorder p).find? fun x => match x.2 with
      | .op o _ _ => o.id == id
      | _ => false).map (·.1) := by
  refine Tree.rec
    (motive_1 := fun t => ∀ p, findOpNode id t p = ((t.preorder p).find? fun x => match x.2 with
      | .op o _ _ => o.id == id
      | _ => false).map (·.1))
    (motive_2 := fun l => ∀ p k, findOpNodes id l p k = ((Tree.preorders p k l).find? fun x => match x.2 with
      | .op o _ _ => o.id == id
      | _ => false).map (·.1))
    ?_ ?_ ?_ ?_ ?_ t
  · intro v i p
    simp [findOpNode, Tree.preorder]
  · intro n x i p
    simp [findOpNode, Tree.preorder]
  · intro o cs i ih p
    by_cases h : o.id = id
    · simp [findOpNode, Tree.preorder, h]
    · simp [findOpNode, Tree.preorder, h, ih]
  · intro p k
    simp [findOpNodes, Tree.preorders]
  · intro c cs h1 h2 p k
    simp only [findOpNodes, Tree.preorders, h1, h2, List.find?_append]
    cases List.find? (fun x : List Nat × Tree V => match x.2 with
      | .op o _ _ => o.id == id
      | _ => false) (c.preorder (p ++ [k])) <;> simp

/-- What `replace_variable_nodes` computes. -/
theorem replaceVar_spec (r : Tree V) (name : Str) (t : Tree V) :
    Subst (fun n => if n = name then some r else none) t (replaceVar r name t).1 ∧
      (replaceVar r name t).2 = t.names.count name := by
  refine Tree.rec
    (motive_1 := fun t => Subst (fun n => if n = name then some r else none) t (replaceVar r name t).1 ∧
      (replaceVar r name t).2 = t.names.count name)
    (motive_2 := fun l => List.Forall₂ (Subst (fun n => if n = name then some r else none)) l
      (replaceVars r name l).1 ∧ (replaceVars r name l).2 = (Tree.namesList l).count name)
    ?_ ?_ ?_ ?_ ?_ t
  · intro v i
    exact ⟨.const, rfl⟩
  · intro n x i
    by_cases h : name = n
    · subst h
      simp only [replaceVar, if_true, treeCopy_eq, Tree.names]
      exact ⟨.hit (by simp), by simp⟩
    · simp only [replaceVar, h, if_false, Tree.names]
      refine ⟨.miss (by simp [Ne.symm h]), ?_⟩
      rw [List.count_eq_zero_of_not_mem]
      simpa using h
  · intro o cs i ih
    exact ⟨Subst.op_iff ih.1, ih.2⟩
  · exact ⟨.nil, rfl⟩
  · intro c cs h1 h2
    simp only [replaceVars, Tree.namesList, List.count_append, h1.2, h2.2, and_true]
    exact .cons h1.1 h2.1

theorem Subst.unique {σ : Str → Option (Tree V)} (t : Tree V) {u w : Tree V}
    (h1 : Subst σ t u) (h2 : Subst σ t w) : u = w := by
  induction t using Tree.induct generalizing u w with
  | hc => cases h1; cases h2; rfl
  | hv =>
    cases h1 with
    | hit h => cases h2 with
      | hit h' => rw [h] at h'; cases h'; rfl
      | miss h' => rw [h] at h'; cases h'
    | miss h => cases h2 with
      | hit h' => rw [h] at h'; cases h'
      | miss h' => rfl
  | ho o cs i ih =>
    cases h1 with
    | op hl h1 => cases h2 with
      | op hl' h2 =>
        have := forall2_unique (R := Subst σ) (fun a ha b b' => ih a ha) (forall2_iff.2 ⟨hl, h1⟩)
          (forall2_iff.2 ⟨hl', h2⟩)
        rw [this]

end Verif
