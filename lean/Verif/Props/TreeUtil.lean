import Verif.Lemmas.TreeUtil
import Verif.Props.Context

/-!
# C21–C25, C58, C59: tree utilities
-/

namespace Verif.TreeProps
open Verif
variable {V ε : Type}

/-! ## C21 -/

/-- All operators of a tree satisfy `P`. -/
inductive AllOps (P : Op → Prop) : Tree V → Prop where
  | const {v i} : AllOps P (.const v i)
  | var {n x i} : AllOps P (.var n x i)
  | op {o cs i} : P o → (∀ c ∈ cs, AllOps P c) → AllOps P (.op o cs i)

/-- All constants of a tree satisfy `P`. -/
inductive AllConsts (P : V → Prop) : Tree V → Prop where
  | const {v i} : P v → AllConsts P (.const v i)
  | var {n x i} : AllConsts P (.var n x i)
  | op {o cs i} : (∀ c ∈ cs, AllConsts P c) → AllConsts P (.op o cs i)

/-- **C21.** A copy has everything the tree has, token numbers and ids included. -/
theorem C21_copy (t : Tree V) : treeCopy t = t := treeCopy_eq t

/-- **C21.** A tree without NaN equals itself, hence its copy. -/
theorem C21_refl (eqV : V → V → Bool) (t : Tree V) (h : AllConsts (fun v => eqV v v = true) t) :
    treeEquals eqV t (treeCopy t) = true := by
  rw [treeCopy_eq]
  induction t using Tree.induct with
  | hc => cases h; assumption
  | hv => simp [treeEquals]
  | ho o cs i ih =>
    cases h with
    | op h =>
      rw [treeEquals_op]
      exact ⟨rfl, List.forall₂_same.2 fun c hc => ih c hc (h c hc)⟩

/-- **C21.** Comparison is symmetric if `==` is. -/
theorem C21_symm (eqV : V → V → Bool) (hs : ∀ v w, eqV v w = eqV w v) (t u : Tree V) :
    treeEquals eqV t u = treeEquals eqV u t := by
  have key : ∀ t u : Tree V, treeEquals eqV t u = true → treeEquals eqV u t = true := by
    intro t
    induction t using Tree.induct with
    | hc v i =>
      intro u h
      cases u <;> simp_all [treeEquals]
    | hv n x i =>
      intro u h
      cases u <;> simp_all [treeEquals]
    | ho o cs i ih =>
      intro u h
      cases u with
      | const => simp [treeEquals] at h
      | var => simp [treeEquals] at h
      | op p ds j =>
        rw [treeEquals_op] at h ⊢
        refine ⟨h.1.symm, ?_⟩
        obtain ⟨hl, h⟩ := forall2_iff.1 h.2
        refine forall2_iff.2 ⟨hl.symm, fun k hk => ?_⟩
        exact ih _ (List.getElem_mem _) _ (h k (hl ▸ hk))
  cases h : treeEquals eqV t u with
  | true => rw [key t u h]
  | false =>
    cases h' : treeEquals eqV u t with
    | true => rw [key u t h'] at h; cases h
    | false => rfl

/-- **C21.** Comparison is transitive if `==` is. -/
theorem C21_trans (eqV : V → V → Bool)
    (ht : ∀ u v w, eqV u v = true → eqV v w = true → eqV u w = true) (t u w : Tree V)
    (h1 : treeEquals eqV t u = true) (h2 : treeEquals eqV u w = true) : treeEquals eqV t w = true := by
  induction t using Tree.induct generalizing u w with
  | hc v i =>
    cases u with
    | const => cases w with
      | const => exact ht _ _ _ h1 h2
      | var => simp [treeEquals] at h2
      | op => simp [treeEquals] at h2
    | var => simp [treeEquals] at h1
    | op => simp [treeEquals] at h1
  | hv n x i =>
    cases u with
    | var => cases w with
      | var => simp_all [treeEquals]
      | const => simp [treeEquals] at h2
      | op => simp [treeEquals] at h2
    | const => simp [treeEquals] at h1
    | op => simp [treeEquals] at h1
  | ho o cs i ih =>
    cases u with
    | const => simp [treeEquals] at h1
    | var => simp [treeEquals] at h1
    | op p ds j =>
      cases w with
      | const => simp [treeEquals] at h2
      | var => simp [treeEquals] at h2
      | op q es l =>
        rw [treeEquals_op] at h1 h2 ⊢
        refine ⟨h1.1.trans h2.1, ?_⟩
        obtain ⟨hl, g1⟩ := forall2_iff.1 h1.2
        obtain ⟨hl', g2⟩ := forall2_iff.1 h2.2
        refine forall2_iff.2 ⟨hl.trans hl', fun k hk => ?_⟩
        exact ih _ (List.getElem_mem _) _ _ (g1 k hk) (g2 k (hl ▸ hk))

/-- **C21** (partial).  Trees compare equal exactly if they are the same expression,
provided that the operators of both trees are told apart by their ids.  The full
statement has no such hypothesis; see the witness. -/
theorem C21_same_partial (eqV : V → V → Bool) (P : Op → Prop)
    (hid : ∀ o p, P o → P p → o.id = p.id → o = p) (t u : Tree V) (ht : AllOps P t)
    (hu : AllOps P u) : treeEquals eqV t u = true ↔ SameExpr eqV t u := by
  induction t using Tree.induct generalizing u with
  | hc v i =>
    cases u with
    | const => exact ⟨fun h => .const h, fun h => by cases h; assumption⟩
    | var => exact ⟨fun h => by simp [treeEquals] at h, fun h => by cases h⟩
    | op => exact ⟨fun h => by simp [treeEquals] at h, fun h => by cases h⟩
  | hv n x i =>
    cases u with
    | var m y j =>
      constructor
      · intro h
        simp only [treeEquals, Bool.and_eq_true, beq_iff_eq] at h
        rw [h.1, h.2]
        exact .var
      · intro h
        cases h
        simp [treeEquals]
    | const => exact ⟨fun h => by simp [treeEquals] at h, fun h => by cases h⟩
    | op => exact ⟨fun h => by simp [treeEquals] at h, fun h => by cases h⟩
  | ho o cs i ih =>
    cases u with
    | const => exact ⟨fun h => by simp [treeEquals] at h, fun h => by cases h⟩
    | var => exact ⟨fun h => by simp [treeEquals] at h, fun h => by cases h⟩
    | op p ds j =>
      cases ht with
      | op ht1 ht2 => cases hu with
        | op hu1 hu2 =>
          rw [treeEquals_op]
          constructor
          · rintro ⟨h1, h2⟩
            rw [hid o p ht1 hu1 h1]
            obtain ⟨hl, h2⟩ := forall2_iff.1 h2
            refine .op hl fun k hk => ?_
            exact (ih _ (List.getElem_mem _) _ (ht2 _ (List.getElem_mem _))
              (hu2 _ (List.getElem_mem _))).1 (h2 k hk)
          · intro h
            cases h with
            | op hl h =>
              refine ⟨rfl, forall2_iff.2 ⟨hl, fun k hk => ?_⟩⟩
              exact (ih _ (List.getElem_mem _) _ (ht2 _ (List.getElem_mem _))
                (hu2 _ (List.getElem_mem _))).2 (h k hk)

/-! ## C22 -/

/-- `vs` lists the elements of `names` once each, by first occurrence. -/
structure FirstOccurrences (names vs : List Str) : Prop where
  nodup : vs.Nodup
  mem : ∀ n, n ∈ vs ↔ n ∈ names
  sorted : vs.Pairwise fun a b => names.idxOf a < names.idxOf b

theorem addNew_sorted (names : List Str) : ∀ done rest, names = done ++ rest → ∀ vs : List Str,
    (∀ n, n ∈ vs ↔ n ∈ done) → vs.Pairwise (fun a b => names.idxOf a < names.idxOf b) →
    (addNew vs rest).Pairwise fun a b => names.idxOf a < names.idxOf b := by
  intro done rest
  induction rest generalizing done with
  | nil => intro _ vs _ h; exact h
  | cons n rest ih =>
    intro hn vs hm hp
    simp only [addNew]
    split
    · rename_i h
      refine ih (done ++ [n]) (by simp [hn]) vs ?_ hp
      intro m
      rw [hm m]
      simp only [List.mem_append, List.mem_singleton]
      constructor
      · intro h; exact .inl h
      · rintro (h | rfl)
        · exact h
        · exact (hm _).1 (by assumption)
    · rename_i h
      refine ih (done ++ [n]) (by simp [hn]) (vs ++ [n]) ?_ ?_
      · intro m
        simp [hm m]
      · rw [List.pairwise_append]
        refine ⟨hp, by simp, ?_⟩
        intro a ha b hb
        simp only [List.mem_singleton] at hb
        subst hb
        have h1 : a ∈ done := (hm a).1 ha
        have h2 : b ∉ done := fun hb => h ((hm b).2 hb)
        rw [hn, List.idxOf_append_of_mem h1, List.idxOf_append_of_notMem h2]
        have := List.idxOf_lt_length_of_mem h1
        omega

theorem addNew_first (names : List Str) : FirstOccurrences names (addNew [] names) :=
  ⟨addNew_nodup (by simp), fun n => by simp [addNew_mem],
   addNew_sorted names [] names rfl [] (by simp) (by simp)⟩

/-- The conditions of `FirstOccurrences` determine the list. -/
theorem FirstOccurrences.unique {names a b : List Str} (ha : FirstOccurrences names a)
    (hb : FirstOccurrences names b) : a = b := by
  refine List.Perm.eq_of_pairwise (le := fun x y => names.idxOf x < names.idxOf y) ?_ ha.sorted hb.sorted ?_
  · intro x y _ _ h1 h2
    omega
  · rw [List.perm_ext_iff_of_nodup ha.nodup hb.nodup]
    intro x
    rw [ha.mem, hb.mem]

/-- Every variable node of `t'` is one of `t` with the id of its name; all else is
the same. -/
inductive Renumbered (id : Str → Nat) : Tree V → Tree V → Prop where
  | const {v i} : Renumbered id (.const v i) (.const v i)
  | var {n x i} : Renumbered id (.var n x i) (.var n (id n) i)
  | op {o cs ds i} (hl : cs.length = ds.length) :
      (∀ k (hk : k < cs.length), Renumbered id cs[k] (ds[k]'(hl ▸ hk))) →
      Renumbered id (.op o cs i) (.op o ds i)

theorem withIds_renumbered (f : Str → Nat) (t : Tree V) : Renumbered f t (t.withIds f) := by
  refine Tree.rec (motive_1 := fun t => Renumbered f t (t.withIds f))
    (motive_2 := fun l => List.Forall₂ (Renumbered f) l (Tree.withIdsList f l)) ?_ ?_ ?_ ?_ ?_ t
  · intro v i; exact .const
  · intro n x i; exact .var
  · intro o cs i ih
    obtain ⟨hl, h⟩ := forall2_iff.1 ih
    exact .op hl h
  · exact .nil
  · intro c cs h1 h2; exact .cons h1 h2

/-- **C22.** With `vs` the variables of the tree by first occurrence: if the buffer
holds them, they are what is listed and counted, and every variable node gets the
position of its name as id; otherwise this is reported, and the buffer holds as
many of them as fit. -/
theorem C22_list_variables (buf : Nat) (t : Tree V) (vs : List Str)
    (hvs : FirstOccurrences t.varNames vs) :
    (if vs.length ≤ buf then
      (listVariables buf t).sufficient = true ∧ (listVariables buf t).vars = vs ∧
      (listVariables buf t).count = vs.length ∧
      Renumbered (fun n => vs.idxOf n) t (listVariables buf t).tree
    else
      (listVariables buf t).sufficient = false ∧ (listVariables buf t).vars = vs.take buf ∧
      (listVariables buf t).count = buf) := by
  have he : vs = addNew [] t.names := by
    rw [varNames_eq] at hvs
    exact hvs.unique (addNew_first _)
  subst he
  have := listVarsRec_spec buf t [] (by simp)
  unfold listVariables
  split
  · rename_i h
    rw [if_pos h] at this
    rw [this]
    exact ⟨rfl, rfl, rfl, withIds_renumbered _ t⟩
  · rename_i h
    rw [if_neg h] at this
    obtain ⟨t', ht'⟩ := this
    rw [ht']
    exact ⟨rfl, rfl, rfl⟩

/-- Such a list always exists. -/
theorem C22_exists (names : List Str) : ∃ vs, FirstOccurrences names vs := ⟨_, addNew_first names⟩

/-! ## C23 -/

/-- **C23.** `replace_variable_nodes` is the substitution of one variable; it
returns the number of occurrences. -/
theorem C23_replace (r t u : Tree V) (name : Str) :
    ((replaceVar r name t).1 = u ↔ Subst (fun n => if n = name then some r else none) t u) ∧
      (replaceVar r name t).2 = t.varNames.count name := by
  have h := replaceVar_spec r name t
  refine ⟨⟨?_, ?_⟩, ?_⟩
  · rintro rfl; exact h.1
  · intro h'; exact Subst.unique t h.1 h'
  · rw [varNames_eq]; exact h.2

/-- **C23.** `count_all_variable_nodes` counts the variable nodes. -/
theorem C23_count (t : Tree V) : countVars t = t.varNames.length := by
  rw [varNames_eq, countVars_eq]

/-! ## C24 -/

/-- **C24.** `tree_reduce` succeeds with `v` exactly if `v` is the value of the tree. -/
theorem C24_value (L : Op → List V → Except ε V) (ve : ε) (t : Tree V) (v : V) :
    treeReduce L ve t [] = .ok v ↔ Means L (fun _ => none) t v := by
  have hs := treeReduce_spec L ve t []
  constructor
  · intro h
    rw [h] at hs
    exact hs.1
  · intro h
    cases hr : treeReduce L ve t [] with
    | ok w =>
      rw [hr] at hs
      rw [Means.unique t hs.1 h]
    | error e =>
      rw [hr] at hs
      exfalso
      obtain ⟨pre, n, post, h1, h2, h3⟩ := hs
      have all : ∀ (t : Tree V) p, (∃ v, Means L (fun _ => none) t v) →
          ∀ q ∈ t.postorder p, ∃ w, Means L (fun _ => none) q.2 w := by
        intro t
        refine Tree.rec
          (motive_1 := fun t => ∀ p, (∃ v, Means L (fun _ => none) t v) →
            ∀ q ∈ t.postorder p, ∃ w, Means L (fun _ => none) q.2 w)
          (motive_2 := fun l => ∀ p k, (∃ vs, List.Forall₂ (Means L (fun _ => none)) l vs) →
            ∀ q ∈ Tree.postorders p k l, ∃ w, Means L (fun _ => none) q.2 w)
          ?_ ?_ ?_ ?_ ?_ t
        · intro v i p h q hq
          simp only [Tree.postorder, List.mem_singleton] at hq
          subst hq; exact h
        · intro n x i p h q hq
          simp only [Tree.postorder, List.mem_singleton] at hq
          subst hq; exact h
        · intro o cs i ih p h q hq
          simp only [Tree.postorder, List.mem_append, List.mem_singleton] at hq
          rcases hq with hq | rfl
          · obtain ⟨v, h⟩ := h
            obtain ⟨vs, h1, -⟩ := Means.op_iff.1 h
            exact ih p 0 ⟨vs, h1⟩ q hq
          · exact h
        · intro p k _ q hq; cases hq
        · intro c cs h1 h2 p k ⟨vs, h⟩ q hq
          cases h with
          | cons ha hb =>
            simp only [Tree.postorders, List.mem_append] at hq
            rcases hq with hq | hq
            · exact h1 _ ⟨_, ha⟩ q hq
            · exact h2 _ _ ⟨_, hb⟩ q hq
      obtain ⟨w, hw⟩ := all t [] ⟨v, h⟩ (e.2, n) (by rw [h1]; simp)
      exact h3.not_means hw

/-- **C24.** `tree_reduce` fails with error `e` at node `q` exactly if `q` is the
first node in order of evaluation that has no value, and is itself to blame for
`e`. -/
theorem C24_error (L : Op → List V → Except ε V) (ve : ε) (t : Tree V) (e : ε) (q : List Nat) :
    treeReduce L ve t [] = .error (e, q) ↔
      ∃ pre n post, t.postorder [] = pre ++ (q, n) :: post ∧
        (∀ x ∈ pre, ∃ w, Means L (fun _ => none) x.2 w) ∧ Blame L ve n e := by
  have hs := treeReduce_spec L ve t []
  constructor
  · intro h
    rw [h] at hs
    exact hs
  · rintro ⟨pre, n, post, h1, h2, h3⟩
    cases hr : treeReduce L ve t [] with
    | ok w =>
      rw [hr] at hs
      exfalso
      obtain ⟨w, hw⟩ := hs.2 (q, n) (by rw [h1]; simp)
      exact h3.not_means hw
    | error e' =>
      obtain ⟨e', q'⟩ := e'
      rw [hr] at hs
      obtain ⟨pre', n', post', g1, g2, g3⟩ := hs
      have first : ∀ (a a' : List (List Nat × Tree V)) (x x' : List Nat × Tree V) (b b' : List (List Nat × Tree V)),
          a ++ x :: b = a' ++ x' :: b' → (∀ y ∈ a, ∃ w, Means L (fun _ => none) y.2 w) →
          (∀ y ∈ a', ∃ w, Means L (fun _ => none) y.2 w) → (¬ ∃ w, Means L (fun _ => none) x.2 w) →
          (¬ ∃ w, Means L (fun _ => none) x'.2 w) → x = x' := by
        intro a
        induction a with
        | nil =>
          intro a' x x' b b' h _ ha' hx _
          cases a' with
          | nil =>
            simp only [List.nil_append, List.cons.injEq] at h
            exact h.1
          | cons y a' =>
            simp only [List.nil_append, List.cons_append, List.cons.injEq] at h
            rw [h.1] at hx
            exact absurd (ha' y (by simp)) hx
        | cons y a ih =>
          intro a' x x' b b' h ha ha' hx hx'
          cases a' with
          | nil =>
            simp only [List.nil_append, List.cons_append, List.cons.injEq] at h
            rw [← h.1] at hx'
            exact absurd (ha y (by simp)) hx'
          | cons y' a' =>
            simp only [List.cons_append, List.cons.injEq] at h
            exact ih a' x x' b b' h.2 (fun y hy => ha y (by simp [hy])) (fun y hy => ha' y (by simp [hy])) hx hx'
      have hx := first pre pre' (q, n) (q', n') post post' (by rw [← h1, ← g1]) h2 g2
        (fun ⟨w, hw⟩ => h3.not_means hw) (fun ⟨w, hw⟩ => g3.not_means hw)
      simp only [Prod.mk.injEq] at hx
      obtain ⟨rfl, rfl⟩ := hx
      rw [h3.unique g3]

/-! ## C25 -/

/-- **C25.** Folding constants preserves the value under every assignment, even if
it stops with an error. -/
theorem C25_value (L : Op → List V → Except ε V) (ve : ε) (t : Tree V) (σ : Str → Option V) (v : V) :
    Means L σ (reduceConst L ve t []).1 v ↔ Means L σ t v :=
  (reduceConst_spec L ve t []).1 σ v

/-- **C25.** After success no operator node without variables is left. -/
theorem C25_folded (L : Op → List V → Except ε V) (ve : ε) (t : Tree V)
    (h : (reduceConst L ve t []).2 = none) :
    ∀ q ∈ (reduceConst L ve t []).1.preorder [], ∀ o cs i, q.2 = .op o cs i → ¬ Ground q.2 :=
  (reduceConst_spec L ve t []).2.2.1 h

/-- **C25.** An error is reported only if a variable-free node of the tree is to
blame for it, and that node is reported. -/
theorem C25_error (L : Op → List V → Except ε V) (ve : ε) (t : Tree V) (e : ε) (q : List Nat)
    (h : (reduceConst L ve t []).2 = some (e, q)) :
    ∃ n, (q, n) ∈ t.postorder [] ∧ Ground n ∧ Blame L ve n e :=
  (reduceConst_spec L ve t []).2.2.2 e q h

/-- **C25.** The variables stay. -/
theorem C25_vars (L : Op → List V → Except ε V) (ve : ε) (t : Tree V) :
    (reduceConst L ve t []).1.varNames = t.varNames := by
  rw [varNames_eq, varNames_eq]
  exact (reduceConst_spec L ve t []).2.1

/-! ## C58, C59 -/

/-- **C58.** `get_variable_nodes` returns the number of nodes of the variable and
writes pointers to the first of them, in pre-order, as many as fit, to consecutive
places of the buffer, and nothing else. -/
theorem C58_variable_nodes (name : Str) (t : Tree V) (buf : Nat) :
    let occ := (t.preorder []).filter fun x => x.2.isVar name
    (varNodes name t [] buf 0).1 = occ.length ∧
    (varNodes name t [] buf 0).2 = (List.range (min buf occ.length)).zip (occ.map (·.1)) := by
  intro occ
  rw [varNodes_spec]
  refine ⟨rfl, ?_⟩
  change ((occ.take buf).zipIdx 0).map (fun x => (x.2, x.1.1)) = _
  generalize occ = l
  apply List.ext_getElem
  · simp
  · intro k h1 h2
    simp

/-- **C59.** `find_op` finds the first node in pre-order with the operator's id. -/
theorem C59_find_op (id : Nat) (t : Tree V) (q : List Nat) :
    findOpNode id t [] = some q ↔ ∃ pre o cs i post,
      t.preorder [] = pre ++ (q, .op o cs i) :: post ∧ o.id = id ∧
      ∀ x ∈ pre, ∀ o cs i, x.2 = .op o cs i → o.id ≠ id := by
  rw [findOpNode_spec]
  constructor
  · intro h
    simp only [Option.map_eq_some_iff] at h
    obtain ⟨x, hx, rfl⟩ := h
    rw [List.find?_eq_some_iff_append] at hx
    obtain ⟨h1, pre, post, h2, h3⟩ := hx
    obtain ⟨p, n⟩ := x
    cases n with
    | const => cases h1
    | var => cases h1
    | op o cs i =>
      refine ⟨pre, o, cs, i, post, h2, by simpa using h1, ?_⟩
      intro y hy o' cs' i' he
      have := h3 y hy
      rw [he] at this
      simpa using this
  · rintro ⟨pre, o, cs, i, post, h1, h2, h3⟩
    refine Option.map_eq_some_iff.2 ⟨(q, .op o cs i), ?_, rfl⟩
    rw [List.find?_eq_some_iff_append]
    refine ⟨by simpa using h2, pre, post, h1, ?_⟩
    intro y hy
    rcases hn : y.2 with _ | _ | ⟨o', cs', i'⟩
    · rfl
    · rfl
    · simpa using h3 y hy o' cs' i' hn

/-- **C59.** `find_op` returns NULL exactly if no node has the operator's id. -/
theorem C59_not_found (id : Nat) (t : Tree V) :
    findOpNode id t [] = none ↔ ∀ x ∈ t.preorder [], ∀ o cs i, x.2 = .op o cs i → o.id ≠ id := by
  rw [findOpNode_spec]
  simp only [Option.map_eq_none_iff, List.find?_eq_none]
  constructor
  · intro h x hx o cs i he
    have := h x hx
    rw [he] at this
    simpa using this
  · intro h x hx
    rcases hn : x.2 with _ | _ | ⟨o', cs', i'⟩
    · simp
    · simp
    · simpa using h x hx o' cs' i' hn

/-! ## Witness and examples -/

/-- **C21**, negation of the full statement: after a sequence of additions and
deletions of operators `g` and `h` have the same id, and the different trees `g()`
and `h()` over this context compare equal. -/
theorem C21_same_id_witness :
    ∃ c g h, CtxProps.run Ctx.create CtxProps.clashHistory = .ok c ∧
      c.lookup "g".toList .function = .ok (some g) ∧ c.lookup "h".toList .function = .ok (some h) ∧
      g.2.name ≠ h.2.name ∧
      treeEquals (fun a b : Nat => a == b) (.op g.2 [] 0) (.op h.2 [] 0) = true := by
  have key : (match CtxProps.run Ctx.create CtxProps.clashHistory with
    | .ok c => (match c.lookup "g".toList .function, c.lookup "h".toList .function with
      | .ok (some g), .ok (some h) => decide (g.2.name ≠ h.2.name) &&
          treeEquals (fun a b : Nat => a == b) (.op g.2 [] 0) (.op h.2 [] 0)
      | _, _ => false)
    | _ => false) = true := by decide +kernel
  revert key
  split
  · rename_i c hc
    split
    · rename_i g h hg hh
      intro key
      simp only [Bool.and_eq_true, decide_eq_true_eq] at key
      exact ⟨c, g, h, hc, hg, hh, key.1, key.2⟩
    · intro h; cases h
  · intro h; cases h

/-- `f(x, f(2, y), x)` -/
def sample : Tree Nat :=
  .op (Op.getFunction "f".toList .dyn) [.var "x".toList 7 0,
    .op (Op.getFunction "f".toList .dyn) [.const 2 1, .var "y".toList 7 2] 3, .var "x".toList 7 4] 5

example : (listVariables 2 sample).vars = ["x".toList, "y".toList] ∧ (listVariables 2 sample).sufficient = true ∧
    (listVariables 1 sample).vars = ["x".toList] ∧ (listVariables 1 sample).sufficient = false := by
  decide +kernel

example : (replaceVar (.const 9 0) "x".toList sample).2 = 2 := by decide +kernel

/-- Sum of at least one argument. -/
def total (_ : Op) : List Nat → Except Nat Nat
  | [] => .error 3
  | vs => .ok vs.sum

def noVars : Tree Nat :=
  .op (Op.getFunction "f".toList .dyn) [.const 4 0,
    .op (Op.getFunction "f".toList .dyn) [.const 2 1, .const 5 2] 3] 5

example : (match treeReduce total 99 noVars [] with | .ok v => v == 11 | _ => false) = true := by
  decide +kernel

example : (match treeReduce total 99 sample [] with | .error e => e == (99, [0]) | _ => false) = true := by
  decide +kernel

/-- A constant part with an error: `f(x, f())`. -/
example : (reduceConst total 99 (.op (Op.getFunction "f".toList .dyn) [.var "x".toList 0 0,
    .op (Op.getFunction "f".toList .dyn) [] 1] 2) []).2 = some (3, [1]) := by
  decide +kernel

example : varNodes "x".toList sample [] 5 0 = (2, [(0, [0]), (1, [2])]) := by decide +kernel

example : AllConsts (fun v : Nat => (v == v) = true) sample := by
  have : ∀ t : Tree Nat, AllConsts (fun v : Nat => (v == v) = true) t := by
    intro t
    induction t using Tree.induct with
    | hc => exact .const (by simp)
    | hv => exact .var
    | ho o cs i ih => exact .op ih
  exact this _

end Verif.TreeProps
