import Verif.Model.Rewrite
import Verif.Lemmas.Matching

/-!
# Lemmas about patterns and rules
-/

namespace Verif
variable {V : Type}

/-! ## Token numbers -/

mutual
/-- The tree with other token numbers. -/
def Tree.withTok (g : Nat → Nat) : Tree V → Tree V
  | .const v i => .const v (g i)
  | .var n x i => .var n x (g i)
  | .op o cs i => .op o (Tree.withToks g cs) (g i)
def Tree.withToks (g : Nat → Nat) : List (Tree V) → List (Tree V)
  | [] => []
  | c :: cs => Tree.withTok g c :: Tree.withToks g cs
end

theorem withTok_id (t : Tree V) : t.withTok (fun i => i) = t := by
  refine Tree.rec (motive_1 := fun t => t.withTok (fun i => i) = t)
    (motive_2 := fun l => Tree.withToks (fun i => i) l = l) ?_ ?_ ?_ ?_ ?_ t
  · intro v i; rfl
  · intro n x i; rfl
  · intro o cs i ih; simp only [Tree.withTok, ih]
  · rfl
  · intro c cs h1 h2; simp only [Tree.withToks, h1, h2]

theorem setTokAll_eq (k : Nat) (t : Tree V) : setTokAll k t = t.withTok (fun _ => k) := by
  refine Tree.rec (motive_1 := fun t => setTokAll k t = t.withTok (fun _ => k))
    (motive_2 := fun l => setTokAlls k l = Tree.withToks (fun _ => k) l) ?_ ?_ ?_ ?_ ?_ t
  · intro v i; rfl
  · intro n x i; rfl
  · intro o cs i ih; simp only [setTokAll, Tree.withTok, ih]
  · rfl
  · intro c cs h1 h2; simp only [setTokAlls, Tree.withToks, h1, h2]

theorem withTok_vars (g : Nat → Nat) (t : Tree V) : (t.withTok g).vars = t.vars := by
  refine Tree.rec (motive_1 := fun t => (t.withTok g).vars = t.vars)
    (motive_2 := fun l => Tree.varsList (Tree.withToks g l) = Tree.varsList l) ?_ ?_ ?_ ?_ ?_ t
  · intro v i; rfl
  · intro n x i; rfl
  · intro o cs i ih; simpa only [Tree.withTok, Tree.vars] using ih
  · rfl
  · intro c cs h1 h2; simp only [Tree.withToks, Tree.varsList, h1, h2]

/-! ## Ids given by name -/

theorem withIds_vars (f : Str → Nat) (t : Tree V) :
    (t.withIds f).vars = t.names.map fun n => (n, f n) := by
  refine Tree.rec (motive_1 := fun t => (t.withIds f).vars = t.names.map fun n => (n, f n))
    (motive_2 := fun l => Tree.varsList (Tree.withIdsList f l) =
      (Tree.namesList l).map fun n => (n, f n)) ?_ ?_ ?_ ?_ ?_ t
  · intro v i; rfl
  · intro n x i; rfl
  · intro o cs i ih; simpa only [Tree.withIds, Tree.vars, Tree.names] using ih
  · rfl
  · intro c cs h1 h2
    simp only [Tree.withIdsList, Tree.varsList, Tree.namesList, h1, h2, List.map_append]

theorem withIds_names (f : Str → Nat) (t : Tree V) : (t.withIds f).names = t.names := by
  refine Tree.rec (motive_1 := fun t => (t.withIds f).names = t.names)
    (motive_2 := fun l => Tree.namesList (Tree.withIdsList f l) = Tree.namesList l) ?_ ?_ ?_ ?_ ?_ t
  · intro v i; rfl
  · intro n x i; rfl
  · intro o cs i ih; simpa only [Tree.withIds, Tree.names] using ih
  · rfl
  · intro c cs h1 h2
    simp only [Tree.withIdsList, Tree.namesList, h1, h2]

theorem withIds_withIds (f g : Str → Nat) (t : Tree V) : (t.withIds f).withIds g = t.withIds g := by
  refine Tree.rec (motive_1 := fun t => (t.withIds f).withIds g = t.withIds g)
    (motive_2 := fun l => Tree.withIdsList g (Tree.withIdsList f l) = Tree.withIdsList g l)
    ?_ ?_ ?_ ?_ ?_ t
  · intro v i; rfl
  · intro n x i; rfl
  · intro o cs i ih; simp only [Tree.withIds, ih]
  · rfl
  · intro c cs h1 h2
    simp only [Tree.withIdsList, h1, h2]

theorem copyIds_eq (vars : List Str) (t : Tree V) (h : ∀ n ∈ t.names, n ∈ vars) :
    copyIds vars t = t.withIds vars.idxOf := by
  revert h
  refine Tree.rec (motive_1 := fun t => (∀ n ∈ t.names, n ∈ vars) → copyIds vars t = t.withIds vars.idxOf)
    (motive_2 := fun l => (∀ n ∈ Tree.namesList l, n ∈ vars) →
      copyIdsList vars l = Tree.withIdsList vars.idxOf l) ?_ ?_ ?_ ?_ ?_ t
  · intro v i _; rfl
  · intro n x i h
    simp only [copyIds, idxOf?_eq, if_pos (h n (by simp [Tree.names])), Tree.withIds]
  · intro o cs i ih h; simp only [copyIds, ih h, Tree.withIds]
  · intro _; rfl
  · intro c cs h1 h2 h
    simp only [Tree.namesList, List.mem_append] at h
    simp only [copyIdsList, h1 fun n hn => h n (.inl hn), h2 fun n hn => h n (.inr hn),
      Tree.withIdsList]

theorem copyIds_names (vars : List Str) (t : Tree V) : (copyIds vars t).names = t.names := by
  refine Tree.rec (motive_1 := fun t => (copyIds vars t).names = t.names)
    (motive_2 := fun l => Tree.namesList (copyIdsList vars l) = Tree.namesList l) ?_ ?_ ?_ ?_ ?_ t
  · intro v i; rfl
  · intro n x i; simp only [copyIds]; split <;> rfl
  · intro o cs i ih; simpa only [copyIds, Tree.names] using ih
  · rfl
  · intro c cs h1 h2
    simp only [copyIdsList, Tree.namesList, h1, h2]

theorem listVariables_ok {t : Tree V} {buf : Nat} (h : (addNew [] t.names).length ≤ buf) :
    listVariables buf t = ⟨t.withIds (addNew [] t.names).idxOf, addNew [] t.names, true,
      (addNew [] t.names).length⟩ := by
  have := listVarsRec_spec buf t [] (by simp)
  rw [if_pos h] at this
  unfold listVariables
  rw [this]

theorem listVariables_bad {t : Tree V} {buf : Nat} (h : ¬ (addNew [] t.names).length ≤ buf) :
    (listVariables buf t).sufficient = false := by
  have := listVarsRec_spec buf t [] (by simp)
  rw [if_neg h] at this
  obtain ⟨t', ht'⟩ := this
  unfold listVariables
  rw [ht']

theorem numbered_names (W : List Str) (ns : List Str) (vs : List Str) (h : addNew vs ns <+: W)
    (hvs : vs.Nodup) :
    numbered vs.length (ns.map fun n => (n, W.idxOf n)) = some (addNew vs ns).length := by
  induction ns generalizing vs with
  | nil => rfl
  | cons n ns ih =>
    simp only [addNew] at h
    simp only [List.map_cons, numbered, addNew]
    by_cases hn : n ∈ vs
    · simp only [hn, if_true] at h ⊢
      have : W.idxOf n < vs.length := by
        rw [idxOf_prefix ((addNew_prefix vs ns).trans h) hn]
        exact List.idxOf_lt_length_of_mem hn
      rw [if_pos this]
      exact ih vs h hvs
    · simp only [hn, if_false] at h ⊢
      have : W.idxOf n = vs.length := by
        rw [idxOf_prefix ((addNew_prefix _ ns).trans h) (by simp), List.idxOf_append_of_notMem hn]
        simp
      rw [if_neg (by omega), if_pos this]
      have := ih (vs ++ [n]) h (by
        rw [List.nodup_append]
        refine ⟨hvs, by simp, ?_⟩
        intro x hx y hy
        simp only [List.mem_singleton] at hy
        subst hy
        rintro rfl
        exact hn hx)
      simpa using this

/-! ## Constraints -/

theorem varNodes_fst (name : Str) (t : Tree V) : ∀ p buf pos,
    (varNodes name t p buf pos).1 = t.names.count name := by
  refine Tree.rec
    (motive_1 := fun t => ∀ p buf pos, (varNodes name t p buf pos).1 = t.names.count name)
    (motive_2 := fun l => ∀ p k buf pos,
      (varNodesList name l p k buf pos).1 = (Tree.namesList l).count name) ?_ ?_ ?_ ?_ ?_ t
  · intro v i p buf pos; rfl
  · intro n x i p buf pos
    simp only [varNodes, Tree.names]
    split
    · rename_i h; subst h; simp
    · rename_i h; simp [h]
  · intro o cs i ih p buf pos; exact ih p 0 buf pos
  · intro p k buf pos; rfl
  · intro c cs h1 h2 p k buf pos
    simp only [varNodesList, h1, h2, Tree.namesList, List.count_append]

theorem occurs_iff (name : Str) (t : Tree V) : occurs name t = true ↔ name ∈ t.names := by
  unfold occurs
  rw [varNodes_fst]
  simp [← List.count_pos_iff, Nat.pos_iff_ne_zero]

theorem foldl_last {α : Type} (l : List (α × Nat)) (a : Nat) :
    l.foldl (fun _ x => x.2) a = (l.getLast?.map Prod.snd).getD a := by
  induction l generalizing a with
  | nil => rfl
  | cons x l ih =>
    rw [List.foldl_cons, ih]
    cases l with
    | nil => rfl
    | cons y l =>
      rw [List.getLast?_cons_cons]
      cases h : (y :: l).getLast? with
      | none => simp at h
      | some z => rfl

/-- The trigger is the last variable that occurs in the constraint. -/
theorem triggerId_spec (vars : List Str) (c : Tree V) (hn : ∀ n ∈ c.names, n ∈ vars)
    (hd : vars.Nodup) :
    (∀ n ∈ c.names, vars.idxOf n ≤ triggerId vars c) ∧ (vars ≠ [] → triggerId vars c < vars.length) := by
  unfold triggerId
  rw [foldl_last]
  have hsorted : (vars.zipIdx.filter fun x => occurs x.1 c).Pairwise fun a b => a.2 < b.2 := by
    refine List.Pairwise.filter _ ?_
    rw [List.pairwise_iff_getElem]
    intro i j hi hj hij
    simpa using hij
  have hmem : ∀ n ∈ c.names, (n, vars.idxOf n) ∈ vars.zipIdx.filter fun x => occurs x.1 c := by
    intro n hnc
    rw [List.mem_filter]
    refine ⟨?_, (occurs_iff n c).2 hnc⟩
    rw [List.mem_zipIdx_iff_getElem?]
    simp only
    have := List.idxOf_lt_length_of_mem (hn n hnc)
    rw [List.getElem?_eq_getElem this, List.getElem_idxOf]
  constructor
  · intro n hnc
    have h1 := hmem n hnc
    generalize (vars.zipIdx.filter fun x => occurs x.1 c) = l at h1 hsorted
    cases h : l.getLast? with
    | none =>
      rw [List.getLast?_eq_none_iff] at h
      subst h
      cases h1
    | some z =>
      obtain ⟨l', rfl⟩ := List.getLast?_eq_some_iff.1 h
      simp only [Option.map_some, Option.getD_some]
      rcases List.mem_append.1 h1 with h1 | h1
      · have := (List.pairwise_append.1 hsorted).2.2 _ h1 z (by simp)
        simp only at this
        omega
      · simp only [List.mem_singleton] at h1
        rw [← h1]
        exact Nat.le_refl _
  · intro hne
    cases h : (vars.zipIdx.filter fun x => occurs x.1 c).getLast? with
    | none =>
      simp only [Option.map_none, Option.getD_none]
      exact List.length_pos_iff.2 hne
    | some z =>
      simp only [Option.map_some, Option.getD_some]
      have hz := List.mem_of_getLast? h
      rw [List.mem_filter] at hz
      have := List.mem_zipIdx_iff_getElem?.1 hz.1
      exact (List.getElem?_eq_some_iff.1 this).1

/-- Where the constraints end up. -/
theorem addConstraints_spec {vars : List Str} {cs0 cs1 : Nat → List (Tree V)} {l : List (Tree V)}
    (h : addConstraints vars cs0 l = some cs1) :
    (∀ k c, c ∈ cs1 k ↔ c ∈ cs0 k ∨ ∃ d ∈ l, c = copyIds vars d ∧ k = triggerId vars c) := by
  induction l generalizing cs0 with
  | nil =>
    simp only [addConstraints, Option.some.injEq] at h
    subst h
    simp
  | cons d l ih =>
    simp only [addConstraints] at h
    split at h
    · cases h
    · intro k c
      rw [ih h k c]
      simp only [List.mem_cons, exists_eq_or_imp]
      by_cases hk : k = triggerId vars (copyIds vars d)
      · subst hk
        simp only [if_true, List.mem_append, List.mem_singleton]
        constructor
        · rintro ((h | rfl) | h)
          · exact .inl h
          · exact .inr (.inl ⟨rfl, rfl⟩)
          · exact .inr (.inr h)
        · rintro (h | ⟨rfl, -⟩ | h)
          · exact .inl (.inl h)
          · exact .inl (.inr rfl)
          · exact .inr h
      · simp only [if_neg hk]
        constructor
        · rintro (h | h)
          · exact .inl h
          · exact .inr (.inr h)
        · rintro (h | ⟨rfl, h⟩ | h)
          · exact .inl h
          · exact absurd h hk
          · exact .inr h

/-- What `get_pattern` makes of a tree and constraints. -/
structure PatternOf (t : Tree V) (cs : List (Tree V)) (W : List Str) (pat : Pattern V) : Prop where
  names : W = addNew [] t.names
  len : W.length ≤ maxMappedVars
  tree : pat.tree = t.withIds W.idxOf
  constr : ∀ k c, c ∈ pat.constraints k ↔ ∃ d ∈ cs, c = copyIds W d ∧ k = triggerId W c

theorem getPattern_spec {t : Tree V} {cs : List (Tree V)} {pat : Pattern V}
    (h : getPattern t cs = .ok pat) : PatternOf t cs (addNew [] t.names) pat := by
  unfold getPattern at h
  by_cases hl : (addNew [] t.names).length ≤ maxMappedVars
  · rw [listVariables_ok hl] at h
    simp only [if_true] at h
    split at h
    · rename_i cs1 hcs
      cases h
      refine ⟨rfl, hl, rfl, fun k c => ?_⟩
      rw [addConstraints_spec hcs k c]
      simp
    · cases h
  · simp only [listVariables_bad hl, Bool.false_eq_true, if_false] at h
    cases h

section
variable {t : Tree V} {cs : List (Tree V)} {W : List Str} {pat : Pattern V}

theorem PatternOf.mem (h : PatternOf t cs W pat) {n : Str} : n ∈ W ↔ n ∈ t.names := by
  rw [h.names, addNew_mem]; simp

theorem PatternOf.nodup (h : PatternOf t cs W pat) : W.Nodup := by
  rw [h.names]; exact addNew_nodup (by simp)

theorem PatternOf.numbered (h : PatternOf t cs W pat) : numbered 0 pat.tree.vars = some W.length := by
  rw [h.tree, withIds_vars]
  have := numbered_names W t.names [] (by rw [← h.names]; exact List.prefix_refl _) (by simp)
  rwa [← h.names] at this

/-- Which ids belong to list variables. -/
def listIds (W : List Str) (id : Nat) : Bool := isListName (W.getD id [])

theorem PatternOf.listIds (h : PatternOf t cs W pat) :
    ∀ x ∈ pat.tree.vars, isListName x.1 = listIds W x.2 := by
  rw [h.tree, withIds_vars]
  intro x hx
  obtain ⟨n, hn, rfl⟩ := List.mem_map.1 hx
  have := List.idxOf_lt_length_of_mem (h.mem.2 hn)
  simp only [Verif.listIds]
  rw [List.getD_eq_getElem?_getD, List.getElem?_eq_getElem this, List.getElem_idxOf]
  rfl

theorem PatternOf.ctxOk (h : PatternOf t cs W pat) (hv : ∀ c ∈ cs, ∀ n ∈ c.names, n ∈ t.names)
    (eqV : V → V → Bool) (checker : Tree V → Bool) : CtxOk ⟨eqV, pat.constraints, checker⟩ := by
  refine ⟨fun k c hc x hx => ?_⟩
  obtain ⟨d, hd, rfl, rfl⟩ := (h.constr k c).1 hc
  have hv' : ∀ n ∈ d.names, n ∈ W := fun n hn => h.mem.2 (hv d hd n hn)
  rw [copyIds_eq W d hv', withIds_vars] at hx
  obtain ⟨n, hn, rfl⟩ := List.mem_map.1 hx
  refine (triggerId_spec W (copyIds W d) ?_ h.nodup).1 n ?_
  · rw [copyIds_names]; exact hv'
  · rw [copyIds_names]; exact hn

end

/-! ## Instances -/

theorem flatten_eq_instNodes {σ : Str → Option (List (Tree V))} {g : Nat → Nat} {F : Tree V → List (Tree V)}
    {cs : List (Tree V)} {parts : List (List (Tree V))} (hl : cs.length = parts.length)
    (h : ∀ k (hk : k < cs.length), Inst σ g cs[k] (parts[k]'(hl ▸ hk)))
    (hF : ∀ c ∈ cs, ∀ l, Inst σ g c l → l = F c) : parts.flatten = cs.flatMap F := by
  have : List.Forall₂ (Inst σ g) cs parts := forall2_iff.2 ⟨hl, h⟩
  clear h hl
  induction this with
  | nil => rfl
  | cons h1 _ ih =>
    rw [List.flatten_cons, List.flatMap_cons, ih fun c hc => hF c (by simp [hc]),
      hF _ (by simp) _ h1]

theorem instNodes_flatMap (f : Nat → List (Tree V)) (l : List (Tree V)) :
    instNodes f l = l.flatMap (instNode f) := by
  induction l with
  | nil => rfl
  | cons c cs ih => simp [instNodes, ih]

theorem withToks_eq (g : Nat → Nat) (l : List (Tree V)) : Tree.withToks g l = l.map (Tree.withTok g) := by
  induction l with
  | nil => rfl
  | cons c cs ih => simp [Tree.withToks, ih]

theorem withIdsList_eq (g : Str → Nat) (l : List (Tree V)) : Tree.withIdsList g l = l.map (Tree.withIds g) := by
  induction l with
  | nil => rfl
  | cons c cs ih => simp [Tree.withIdsList, ih]

/-- Instances are computed by `instNode`. -/
theorem inst_iff {σ : Str → Option (List (Tree V))} (g : Nat → Nat) {f : Nat → List (Tree V)} {idx : Str → Nat}
    (t : Tree V) (h : ∀ n ∈ t.names, σ n = some (f (idx n))) (l : List (Tree V)) :
    Inst σ g t l ↔ l = instNode f ((t.withIds idx).withTok g) := by
  induction t using Tree.induct generalizing l with
  | hc v i =>
    constructor
    · intro hi; cases hi; rfl
    · rintro rfl; exact .const
  | hv n x i =>
    have := h n (by simp [Tree.names])
    constructor
    · intro hi
      cases hi with
      | var hi => rw [this] at hi; cases hi; rfl
    · rintro rfl; exact .var this
  | ho o cs i ih =>
    simp only [Tree.names] at h
    have ih' : ∀ c ∈ cs, ∀ l, Inst σ g c l ↔ l = instNode f ((c.withIds idx).withTok g) := by
      intro c hc
      exact ih c hc fun n hn => h n (namesList_mem.2 ⟨c, hc, hn⟩)
    simp only [Tree.withIds, Tree.withTok, instNode, instNodes_flatMap, withToks_eq, withIdsList_eq,
      List.map_map, List.flatMap_map]
    constructor
    · intro hi
      cases hi with
      | op hl hi =>
        rw [flatten_eq_instNodes hl hi (F := fun c => instNode f ((c.withIds idx).withTok g))
          fun c hc l hl => (ih' c hc l).1 hl]
        rfl
    · rintro rfl
      have : cs.flatMap (fun c => instNode f ((c.withIds idx).withTok g))
          = (cs.map fun c => instNode f ((c.withIds idx).withTok g)).flatten := by
        rw [List.flatMap_def]
      have hop : Inst σ g (.op o cs i)
          [.op o ((cs.map fun c => instNode f ((c.withIds idx).withTok g)).flatten) (g i)] :=
        .op (by simp) fun k hk => by
          simp only [List.getElem_map]
          exact (ih' _ (List.getElem_mem _) _).2 rfl
      rw [← this] at hop
      exact hop

theorem inst_id_iff {σ : Str → Option (List (Tree V))} {f : Nat → List (Tree V)} {idx : Str → Nat}
    (t : Tree V) (h : ∀ n ∈ t.names, σ n = some (f (idx n))) (l : List (Tree V)) :
    Inst σ (fun i => i) t l ↔ l = instNode f (t.withIds idx) := by
  rw [inst_iff _ t h, withTok_id]

/-! ## List variables -/

theorem isListName_iff (n : Str) : isListName n = true ↔ ListName n := by
  unfold ListName
  cases n <;> simp [isListName]

theorem apart_aux (W : List Str) (t : Tree V) : ∀ seen vs : List Str, (∀ n, n ∈ vs ↔ n ∈ seen) →
    vs.Nodup → addNew vs t.names <+: W → ListsApart seen t → ApartId vs.length (t.withIds W.idxOf) := by
  refine Tree.rec
    (motive_1 := fun t => ∀ seen vs : List Str, (∀ n, n ∈ vs ↔ n ∈ seen) →
      vs.Nodup → addNew vs t.names <+: W → ListsApart seen t → ApartId vs.length (t.withIds W.idxOf))
    (motive_2 := fun l => ∀ seen vs : List Str, (∀ n, n ∈ vs ↔ n ∈ seen) →
      vs.Nodup → addNew vs (Tree.namesList l) <+: W → ListsApartAll seen l →
      ApartIdAll vs.length (Tree.withIdsList W.idxOf l))
    ?_ ?_ ?_ ?_ ?_ t
  · intro v i seen vs _ _ _ _; trivial
  · intro n x i seen vs _ _ _ _; trivial
  · intro o cs i ih seen vs hs hd hp ha
    refine ⟨?_, ih seen vs hs hd hp ha.2⟩
    intro a b n x j hab hn hx c hc
    rw [withIdsList_eq] at hab
    obtain ⟨a', b', rfl, rfl, hb'⟩ := List.map_eq_append_iff.1 hab
    obtain ⟨y, b'', rfl, hy, rfl⟩ := List.map_eq_cons_iff.1 hb'
    cases y with
    | const => cases hy
    | op => cases hy
    | var n' x' j' =>
      simp only [Tree.withIds, Tree.var.injEq] at hy
      obtain ⟨rfl, rfl, rfl⟩ := hy
      have hW : n' ∈ W := by
        refine hp.subset (addNew_mem.2 (.inr ?_))
        exact namesList_mem.2 ⟨.var n' x' j', by simp, by simp [Tree.names]⟩
      have hvs : n' ∈ vs := by
        have hp' := (addNew_prefix vs _).trans hp
        obtain ⟨r, rfl⟩ := hp'
        by_contra hnv
        rw [List.idxOf_append_of_notMem hnv] at hx
        omega
      obtain ⟨d, hd', rfl⟩ := List.mem_map.1 hc
      cases d with
      | const => rfl
      | op => rfl
      | var n2 x2 j2 =>
        have := ha.1 a' b'' n' x' j' rfl ((isListName_iff _).1 hn) ((hs n').1 hvs) n2 x2 j2 hd'
        rw [← isListName_iff] at this
        simpa [Tree.withIds, Tree.isListVar] using this
  · intro seen vs _ _ _ _; trivial
  · intro c cs h1 h2 seen vs hs hd hp ha
    simp only [Tree.namesList, addNew_append] at hp
    have hp1 := (addNew_prefix _ _).trans hp
    refine ⟨h1 seen vs hs hd hp1 ha.1, ?_⟩
    intro K1 hK1
    rw [withIds_vars, numbered_names W _ vs hp1 hd] at hK1
    cases hK1
    refine h2 (seen ++ c.varNames) (addNew vs c.names) ?_ (addNew_nodup hd) hp ha.2
    intro n
    rw [addNew_mem, List.mem_append, hs, varNames_eq]

/-! ## Rules -/

theorem getRule_spec {t : Tree V} {cs : List (Tree V)} {W : List Str} {pat : Pattern V} {after : Tree V}
    {rule : RewriteRule V} (hp : PatternOf t cs W pat) (h : getRule pat after = some rule) :
    rule.pattern = pat ∧ rule.after = after.withIds W.idxOf ∧ ∀ n ∈ after.names, n ∈ t.names := by
  have hW : addNew [] pat.tree.names = W := by rw [hp.tree, withIds_names, hp.names]
  have hq : listVariables maxMappedVars pat.tree = ⟨pat.tree, W, true, W.length⟩ := by
    rw [listVariables_ok (by rw [hW]; exact hp.len), hW, hp.tree, withIds_withIds]
  unfold getRule at h
  simp only [hq] at h
  by_cases hc : countVars after > 0
  · simp only [hc, if_true] at h
    by_cases hl : (addNew [] after.names).length ≤ maxMappedVars
    · rw [listVariables_ok hl] at h
      simp only [Bool.true_and] at h
      split at h
      · rename_i hall
        rw [List.all_eq_true] at hall
        have hn : ∀ n ∈ after.names, n ∈ t.names := by
          intro n hn
          have := hall n (addNew_mem.2 (.inr hn))
          rwa [occurs_iff, hp.tree, withIds_names] at this
        cases h
        refine ⟨rfl, ?_, hn⟩
        rw [copyIds_eq, withIds_withIds]
        rw [withIds_names]
        exact fun n h => hp.mem.2 (hn n h)
      · cases h
    · rw [listVariables_bad hl] at h
      simp at h
  · simp only [hc, if_false, if_true] at h
    have hn : after.names = [] := by
      rw [countVars_eq] at hc
      exact List.length_eq_zero_iff.1 (by omega)
    cases h
    refine ⟨rfl, ?_, by simp [hn]⟩
    rw [copyIds_eq]
    simp [hn]

/-! ## Positions -/

theorem mem_preorder (t : Tree V) : ∀ p q s, (q, s) ∈ t.preorder p ↔
    ∃ q', q = p ++ q' ∧ t.deref q' = some s := by
  refine Tree.rec
    (motive_1 := fun t => ∀ p q s, (q, s) ∈ t.preorder p ↔
      ∃ q', q = p ++ q' ∧ t.deref q' = some s)
    (motive_2 := fun l => ∀ p k q s, (q, s) ∈ Tree.preorders p k l ↔
      ∃ j q' c, q = p ++ (k + j) :: q' ∧ l[j]? = some c ∧ c.deref q' = some s)
    ?_ ?_ ?_ ?_ ?_ t
  · intro v i p q s
    simp only [Tree.preorder, List.mem_singleton, Prod.mk.injEq]
    constructor
    · rintro ⟨rfl, rfl⟩; exact ⟨[], by simp, rfl⟩
    · rintro ⟨q', rfl, h⟩
      cases q' with
      | nil => simp [Tree.deref] at h; simp [h]
      | cons k q' => simp [Tree.deref] at h
  · intro n x i p q s
    simp only [Tree.preorder, List.mem_singleton, Prod.mk.injEq]
    constructor
    · rintro ⟨rfl, rfl⟩; exact ⟨[], by simp, rfl⟩
    · rintro ⟨q', rfl, h⟩
      cases q' with
      | nil => simp [Tree.deref] at h; simp [h]
      | cons k q' => simp [Tree.deref] at h
  · intro o cs i ih p q s
    simp only [Tree.preorder, List.mem_cons, Prod.mk.injEq, ih]
    constructor
    · rintro (⟨rfl, rfl⟩ | ⟨j, q', c, rfl, h1, h2⟩)
      · exact ⟨[], by simp, by simp [Tree.deref]⟩
      · exact ⟨j :: q', by simp, by simp [Tree.deref, h1, h2]⟩
    · rintro ⟨q', rfl, h⟩
      cases q' with
      | nil => simp [Tree.deref] at h; simp [h]
      | cons j q' =>
        simp only [Tree.deref] at h
        split at h
        · rename_i c hc
          exact .inr ⟨j, q', c, by simp, hc, h⟩
        · cases h
  · intro p k q s
    simp [Tree.preorders]
  · intro c cs h1 h2 p k q s
    simp only [Tree.preorders, List.mem_append, h1, h2]
    constructor
    · rintro (⟨q', rfl, h⟩ | ⟨j, q', d, rfl, h, h'⟩)
      · exact ⟨0, q', c, by simp, by simp, h⟩
      · exact ⟨j + 1, q', d, by simp; omega, by simpa using h, h'⟩
    · rintro ⟨j, q', d, rfl, h, h'⟩
      cases j with
      | zero =>
        simp only [List.getElem?_cons_zero, Option.some.injEq] at h
        subst h
        exact .inl ⟨q', by simp, h'⟩
      | succ j =>
        exact .inr ⟨j, q', d, by simp; omega, by simpa using h, h'⟩

theorem replaceAt_spec (t : Tree V) (q : Path) (s u : Tree V) (h : t.deref q = some s) :
    Replaced t q s u (t.replaceAt q u) := by
  induction q generalizing t with
  | nil =>
    have : t = s := by cases t <;> simpa [Tree.deref] using h
    subst this
    have : t.replaceAt [] u = u := by cases t <;> rfl
    rw [this]
    exact .here
  | cons k q ih =>
    cases t with
    | const => simp [Tree.deref] at h
    | var => simp [Tree.deref] at h
    | op o cs i =>
      simp only [Tree.deref] at h
      split at h
      · rename_i c hc
        simp only [Tree.replaceAt, hc]
        obtain ⟨hk, rfl⟩ := List.getElem?_eq_some_iff.1 hc
        have e1 : cs = cs.take k ++ cs[k] :: cs.drop (k + 1) := by
          rw [List.getElem_cons_drop, List.take_append_drop]
        have e2 : cs.set k (cs[k].replaceAt q u) = cs.take k ++ cs[k].replaceAt q u :: cs.drop (k + 1) := by
          rw [List.set_eq_take_append_cons_drop, if_pos hk]
        have hlen : (cs.take k).length = k := by simp; omega
        have := Replaced.child (o := o) (cs := cs.take k) (ds := cs.drop (k + 1)) (i := i) (ih _ h)
        rw [hlen, ← e1, ← e2] at this
        exact this
      · cases h

/-! ## The first match -/

theorem findMatching_spec (eqV : V → V → Bool) (checker : Tree V → Bool) (pat : Pattern V) (t : Tree V) :
    ∀ p r, findMatching eqV checker pat t p = .ok r →
    match r with
    | none => ∀ x ∈ t.preorder p, getMatching eqV checker pat x.2 = .ok none
    | some (q, m) => ∃ pre s post, t.preorder p = pre ++ (q, s) :: post ∧
        (∀ x ∈ pre, getMatching eqV checker pat x.2 = .ok none) ∧
        getMatching eqV checker pat s = .ok (some m) := by
  refine Tree.rec
    (motive_1 := fun t => ∀ p r, findMatching eqV checker pat t p = .ok r →
      match r with
      | none => ∀ x ∈ t.preorder p, getMatching eqV checker pat x.2 = .ok none
      | some (q, m) => ∃ pre s post, t.preorder p = pre ++ (q, s) :: post ∧
          (∀ x ∈ pre, getMatching eqV checker pat x.2 = .ok none) ∧
          getMatching eqV checker pat s = .ok (some m))
    (motive_2 := fun l => ∀ p k r, findMatchings eqV checker pat l p k = .ok r →
      match r with
      | none => ∀ x ∈ Tree.preorders p k l, getMatching eqV checker pat x.2 = .ok none
      | some (q, m) => ∃ pre s post, Tree.preorders p k l = pre ++ (q, s) :: post ∧
          (∀ x ∈ pre, getMatching eqV checker pat x.2 = .ok none) ∧
          getMatching eqV checker pat s = .ok (some m))
    ?_ ?_ ?_ ?_ ?_ t
  · intro v i p r h
    simp only [findMatching] at h
    obtain ⟨x, hx, h⟩ := Res.bind_eq_ok.1 h
    cases x with
    | none => cases h; simpa [Tree.preorder] using hx
    | some m => cases h; exact ⟨[], _, [], rfl, by simp, hx⟩
  · intro n x i p r h
    simp only [findMatching] at h
    obtain ⟨x, hx, h⟩ := Res.bind_eq_ok.1 h
    cases x with
    | none => cases h; simpa [Tree.preorder] using hx
    | some m => cases h; exact ⟨[], _, [], rfl, by simp, hx⟩
  · intro o cs i ih p r h
    simp only [findMatching] at h
    obtain ⟨x, hx, h⟩ := Res.bind_eq_ok.1 h
    cases x with
    | none =>
      have := ih p 0 r h
      cases r with
      | none =>
        simp only [Tree.preorder, List.mem_cons, forall_eq_or_imp]
        exact ⟨hx, this⟩
      | some r =>
        obtain ⟨q, m⟩ := r
        obtain ⟨pre, s, post, h1, h2, h3⟩ := this
        refine ⟨(p, .op o cs i) :: pre, s, post, by simp [Tree.preorder, h1], ?_, h3⟩
        simp only [List.mem_cons, forall_eq_or_imp]
        exact ⟨hx, h2⟩
    | some m =>
      cases h
      exact ⟨[], .op o cs i, Tree.preorders p 0 cs, rfl, by simp, hx⟩
  · intro p k r h
    cases h
    simp [Tree.preorders]
  · intro c cs h1 h2 p k r h
    simp only [findMatchings] at h
    obtain ⟨x, hx, h⟩ := Res.bind_eq_ok.1 h
    have g1 := h1 _ _ hx
    cases x with
    | none =>
      have g2 := h2 _ _ _ h
      simp only at g1
      cases r with
      | none =>
        intro x hx
        simp only [Tree.preorders, List.mem_append] at hx
        rcases hx with hx | hx
        · exact g1 x hx
        · exact g2 x hx
      | some r =>
        obtain ⟨q, m⟩ := r
        obtain ⟨pre, s, post, e1, e2, e3⟩ := g2
        refine ⟨c.preorder (p ++ [k]) ++ pre, s, post, by simp [Tree.preorders, e1], ?_, e3⟩
        intro x hx
        rcases List.mem_append.1 hx with hx | hx
        · exact g1 x hx
        · exact e2 x hx
    | some r' =>
      cases h
      obtain ⟨q, m⟩ := r'
      obtain ⟨pre, s, post, e1, e2, e3⟩ := g1
      exact ⟨pre, s, post ++ Tree.preorders p (k + 1) cs, by simp [Tree.preorders, e1], e2, e3⟩

end Verif
