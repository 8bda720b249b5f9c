import Verif.Model.Matching
import Verif.Spec.Matching
import Verif.Lemmas.TreeUtil
import Mathlib.Tactic.ByContra

/-!
# Lemmas about matching
-/

namespace Verif
variable {V : Type}

/-! ## Loops -/

theorem Res.flatMap_ok {α β : Type} {f : α → Res (List β)} {l : List α} {r : List β}
    (h : Res.flatMap f l = .ok r) :
    (∀ a ∈ l, ∃ x, f a = .ok x) ∧ ∀ b, b ∈ r ↔ ∃ a ∈ l, ∃ x, f a = .ok x ∧ b ∈ x := by
  induction l generalizing r with
  | nil => cases h; simp
  | cons a l ih =>
    simp only [Res.flatMap] at h
    obtain ⟨x, hx, h⟩ := Res.bind_eq_ok.1 h
    obtain ⟨y, hy, h⟩ := Res.bind_eq_ok.1 h
    cases h
    obtain ⟨h1, h2⟩ := ih hy
    refine ⟨?_, ?_⟩
    · intro b hb
      rcases List.mem_cons.1 hb with rfl | hb
      · exact ⟨x, hx⟩
      · exact h1 b hb
    · intro b
      simp only [List.mem_append, h2, List.mem_cons, exists_eq_or_imp, hx, Res.ok.injEq,
        exists_eq_left']

theorem Res.flatMap_isOk {α β : Type} {f : α → Res (List β)} {l : List α}
    (h : ∀ a ∈ l, ∃ x, f a = .ok x) : ∃ r, Res.flatMap f l = .ok r := by
  induction l with
  | nil => exact ⟨[], rfl⟩
  | cons a l ih =>
    obtain ⟨x, hx⟩ := h a (by simp)
    obtain ⟨y, hy⟩ := ih fun b hb => h b (by simp [hb])
    exact ⟨x ++ y, by simp [Res.flatMap, hx, hy]⟩

/-! ## Instances by id -/

mutual
/-- What stands in place of a tree if variables are replaced by id. -/
def instNode (f : Nat → List (Tree V)) : Tree V → List (Tree V)
  | .const v i => [.const v i]
  | .var _ id _ => f id
  | .op o cs i => [.op o (instNodes f cs) i]
def instNodes (f : Nat → List (Tree V)) : List (Tree V) → List (Tree V)
  | [] => []
  | c :: cs => instNode f c ++ instNodes f cs
end

mutual
/-- Name and id of the variables, left to right. -/
def Tree.vars : Tree V → List (Str × Nat)
  | .const _ _ => []
  | .var n id _ => [(n, id)]
  | .op _ cs _ => Tree.varsList cs
def Tree.varsList : List (Tree V) → List (Str × Nat)
  | [] => []
  | c :: cs => Tree.vars c ++ Tree.varsList cs
end

/-- The assignment of a matching. -/
def Matching.get (m : Matching V) : Nat → List (Tree V) := fun id => (m id).getD []

theorem instNode_congr {f g : Nat → List (Tree V)} (t : Tree V) :
    (∀ x ∈ t.vars, f x.2 = g x.2) → instNode f t = instNode g t := by
  refine Tree.rec (motive_1 := fun t => (∀ x ∈ t.vars, f x.2 = g x.2) → instNode f t = instNode g t)
    (motive_2 := fun l => (∀ x ∈ Tree.varsList l, f x.2 = g x.2) → instNodes f l = instNodes g l)
    ?_ ?_ ?_ ?_ ?_ t
  · intro v i _; rfl
  · intro n x i h; exact h (n, x) (by simp [Tree.vars])
  · intro o cs i ih h; simp only [instNode, ih h]
  · intro _; rfl
  · intro c cs h1 h2 h
    simp only [Tree.varsList, List.mem_append] at h
    simp only [instNodes, h1 fun x hx => h x (.inl hx), h2 fun x hx => h x (.inr hx)]

theorem instNodes_congr {f g : Nat → List (Tree V)} (l : List (Tree V))
    (h : ∀ x ∈ Tree.varsList l, f x.2 = g x.2) : instNodes f l = instNodes g l := by
  induction l with
  | nil => rfl
  | cons c cs ih =>
    simp only [Tree.varsList, List.mem_append] at h
    simp only [instNodes, instNode_congr c fun x hx => h x (.inl hx), ih fun x hx => h x (.inr hx)]

theorem transformNode_ok (m : Matching V) (t : Tree V) :
    (∀ x ∈ t.vars, x.2 < maxMappedVars) → transformNode m t = .ok (instNode m.get t) := by
  refine Tree.rec
    (motive_1 := fun t => (∀ x ∈ t.vars, x.2 < maxMappedVars) →
      transformNode m t = .ok (instNode m.get t))
    (motive_2 := fun l => (∀ x ∈ Tree.varsList l, x.2 < maxMappedVars) →
      transformNodes m l = .ok (instNodes m.get l))
    ?_ ?_ ?_ ?_ ?_ t
  · intro v i _; rfl
  · intro n x i h
    have : x < maxMappedVars := h (n, x) (by simp [Tree.vars])
    simp [transformNode, Matching.nodes, this, instNode, Matching.get, map_treeCopy]
  · intro o cs i ih h
    simp [transformNode, ih h, instNode]
  · intro _; rfl
  · intro c cs h1 h2 h
    simp only [Tree.varsList, List.mem_append] at h
    simp [transformNodes, h1 fun x hx => h x (.inl hx), h2 fun x hx => h x (.inr hx), instNodes]

theorem transformNodes_ok (m : Matching V) (l : List (Tree V))
    (h : ∀ x ∈ Tree.varsList l, x.2 < maxMappedVars) :
    transformNodes m l = .ok (instNodes m.get l) := by
  induction l with
  | nil => rfl
  | cons c cs ih =>
    simp only [Tree.varsList, List.mem_append] at h
    simp [transformNodes, transformNode_ok m c fun x hx => h x (.inl hx),
      ih fun x hx => h x (.inr hx), instNodes]

/-- `transform_by_matching` succeeds exactly if a single tree results. -/
theorem transformByMatching_iff (m : Matching V) (t u : Tree V)
    (h : ∀ x ∈ t.vars, x.2 < maxMappedVars) :
    transformByMatching m t = .ok u ↔ instNode m.get t = [u] := by
  cases t with
  | const v i => simp [transformByMatching, instNode]
  | var n x i =>
    have : x < maxMappedVars := h (n, x) (by simp [Tree.vars])
    simp only [transformByMatching, Matching.nodes, this, if_true, Res.bind_ok, instNode]
    show _ ↔ (m x).getD [] = [u]
    rcases (m x).getD [] with _ | ⟨a, _ | ⟨b, l⟩⟩ <;> simp [treeCopy_eq]
  | op o cs i =>
    simp [transformByMatching, transformNodes_ok m cs h, instNode]

theorem transformByMatching_op (m : Matching V) (t : Tree V)
    (h : ∀ x ∈ t.vars, x.2 < maxMappedVars) (hv : ∀ n x i, t = .var n x i → ∃ u, m.get x = [u]) :
    ∃ u, transformByMatching m t = .ok u := by
  cases t with
  | const v i => exact ⟨_, rfl⟩
  | var n x i =>
    obtain ⟨u, hu⟩ := hv n x i rfl
    exact ⟨u, (transformByMatching_iff m _ u h).2 hu⟩
  | op o cs i => exact ⟨_, (transformByMatching_iff m _ _ h).2 rfl⟩

/-! ## Equality -/

theorem Equal.of_treeEquals {eqV : V → V → Bool} (t u : Tree V) (h : treeEquals eqV t u = true) :
    Equal eqV t u := by
  induction t using Tree.induct generalizing u with
  | hc v i =>
    cases u with
    | const => exact .const h
    | var => simp [treeEquals] at h
    | op => simp [treeEquals] at h
  | hv n x i =>
    cases u with
    | var =>
      simp only [treeEquals, Bool.and_eq_true, beq_iff_eq] at h
      rw [h.1, h.2]
      exact .var
    | const => simp [treeEquals] at h
    | op => simp [treeEquals] at h
  | ho o cs i ih =>
    cases u with
    | const => simp [treeEquals] at h
    | var => simp [treeEquals] at h
    | op p ds j =>
      rw [treeEquals_op] at h
      obtain ⟨hl, h2⟩ := forall2_iff.1 h.2
      exact .op hl h.1 fun k hk => ih _ (List.getElem_mem _) _ (h2 k hk)

theorem Equal.op_of {eqV : V → V → Bool} {o p : Op} {cs ds : List (Tree V)} {i j : Nat}
    (h : o.id = p.id) (h2 : List.Forall₂ (Equal eqV) cs ds) :
    Equal eqV (.op o cs i) (.op p ds j) := by
  obtain ⟨hl, h2⟩ := forall2_iff.1 h2
  exact .op hl h h2

theorem Equal.refls {eqV : V → V → Bool} (l : List (Tree V)) : List.Forall₂ (Equal eqV) l l :=
  List.forall₂_same.2 fun _ _ => .refl

theorem nodelistsEqual_spec {eqV : V → V → Bool} {l avail : List (Tree V)} {b : Bool}
    (h : nodelistsEqual eqV l avail = .ok b) :
    b = true ↔ l.length ≤ avail.length ∧
      List.Forall₂ (fun a b => treeEquals eqV a b = true) l (avail.take l.length) := by
  induction l generalizing avail with
  | nil => cases h; simp
  | cons a as ih =>
    cases avail with
    | nil => cases h
    | cons c cs =>
      simp only [nodelistsEqual] at h
      by_cases hc : treeEquals eqV a c = true
      · rw [if_pos hc] at h
        rw [ih h]
        simp [hc]
      · rw [if_neg hc] at h
        cases h
        simp [hc]

theorem nodelistsEqual_ok (eqV : V → V → Bool) (l avail : List (Tree V)) (h : l.length ≤ avail.length) :
    ∃ b, nodelistsEqual eqV l avail = .ok b := by
  induction l generalizing avail with
  | nil => exact ⟨true, rfl⟩
  | cons a as ih =>
    cases avail with
    | nil => simp at h
    | cons c cs =>
      simp only [nodelistsEqual]
      by_cases hc : treeEquals eqV a c = true
      · rw [if_pos hc]
        exact ih cs (by simpa using h)
      · rw [if_neg hc]
        exact ⟨false, rfl⟩

/-! ## Paths of the suffix tree -/

/-- A path below a suffix node with `new_sum = s`. -/
def SuffixPath (m : Matching V) (n : Nat) : List (Tree V) → Nat → List (Nat × Nat) → Nat → Prop
  | [], s, path, s' => path = [] ∧ s' = s
  | p :: ps, s, path, s' => ∃ label s1 path' ext, path = (s, label) :: path' ∧
      suffixExtend m n p ps.isEmpty s = .ok ext ∧ (label, s1) ∈ ext ∧
      SuffixPath m n ps s1 path' s'

theorem suffixLevels_spec {m : Matching V} {n : Nat} {ps : List (Tree V)}
    {nodes nodes' : List (List (Nat × Nat) × Nat)} (h : suffixLevels m n ps nodes = .ok nodes')
    (x : List (Nat × Nat) × Nat) :
    x ∈ nodes' ↔ ∃ y ∈ nodes, ∃ path, x.1 = y.1 ++ path ∧ SuffixPath m n ps y.2 path x.2 := by
  induction ps generalizing nodes nodes' with
  | nil =>
    simp only [suffixLevels, Res.ok.injEq] at h
    subst h
    simp only [SuffixPath]
    constructor
    · intro hx
      exact ⟨x, hx, [], by simp, rfl, rfl⟩
    · rintro ⟨y, hy, path, h1, h2, h3⟩
      subst h2
      have : x = y := by
        obtain ⟨a, b⟩ := x
        obtain ⟨c, d⟩ := y
        simp_all
      rwa [this]
  | cons p ps ih =>
    simp only [suffixLevels] at h
    obtain ⟨mid, hmid, h⟩ := Res.bind_eq_ok.1 h
    rw [ih h]
    have hm := (Res.flatMap_ok hmid).2
    constructor
    · rintro ⟨y, hy, path, h1, h2⟩
      obtain ⟨a, ha, b, hb, hy⟩ := (hm y).1 hy
      obtain ⟨ext, hext, hb⟩ := Res.bind_eq_ok.1 hb
      simp only [Res.pure_eq, Res.ok.injEq] at hb
      subst hb
      obtain ⟨⟨label, s1⟩, he, rfl⟩ := List.mem_map.1 hy
      exact ⟨a, ha, (a.2, label) :: path, by simp [h1], label, s1, path, ext, rfl, hext, he, h2⟩
    · rintro ⟨y, hy, path, h1, label, s1, path', ext, rfl, hext, he, h2⟩
      refine ⟨(y.1 ++ [(y.2, label)], s1), ?_, path', by simp [h1], h2⟩
      rw [hm]
      exact ⟨y, hy, _, by rw [hext]; rfl, List.mem_map.2 ⟨(label, s1), he, rfl⟩⟩

/-- As long as the sum does not exceed the number of children, sums and labels fit. -/
theorem suffixExtend_sum {m : Matching V} {n : Nat} {p : Tree V} {last : Bool} {s : Nat}
    {ext : List (Nat × Nat)} (h : suffixExtend m n p last s = .ok ext) (hs : s ≤ n) {x : Nat × Nat}
    (hx : x ∈ ext) : x.2 = s + x.1 ∧ (p.isListVar = false → x.1 = 1) := by
  unfold suffixExtend at h
  split at h
  · rename_i hp
    refine ⟨?_, fun hf => by rw [hf] at hp; cases hp⟩
    split at h
    · split at h
      · cases h
        simp only [List.mem_singleton] at hx
        subst hx
        rfl
      · split at h
        · cases h
          simp only [List.mem_singleton] at hx
          subst hx
          simp; omega
        · split at h
          · cases h
            obtain ⟨i, -, rfl⟩ := List.mem_map.1 hx
            rfl
          · cases h
    · cases h
  · split at h
    · cases h
      simp only [List.mem_singleton] at hx
      subst hx
      exact ⟨rfl, fun _ => rfl⟩
    · cases h; cases hx

/-! ## Numbered patterns -/

/-- Ids are given in the order of first occurrence, `K` of them before. -/
def numbered : Nat → List (Str × Nat) → Option Nat
  | K, [] => some K
  | K, x :: xs => if x.2 < K then numbered K xs else if x.2 = K then numbered (K + 1) xs else none

theorem numbered_append {K K' : Nat} {a b : List (Str × Nat)} (h : numbered K (a ++ b) = some K') :
    ∃ K1, numbered K a = some K1 ∧ numbered K1 b = some K' := by
  induction a generalizing K with
  | nil => exact ⟨K, rfl, h⟩
  | cons x a ih =>
    simp only [List.cons_append, numbered] at h ⊢
    split at h
    · rw [if_pos (by assumption)]; exact ih h
    · rw [if_neg (by assumption)]
      split at h
      · rw [if_pos (by assumption)]; exact ih h
      · cases h

theorem numbered_le {K K' : Nat} {a : List (Str × Nat)} (h : numbered K a = some K') :
    K ≤ K' ∧ ∀ x ∈ a, x.2 < K' := by
  induction a generalizing K with
  | nil => cases h; simp
  | cons x a ih =>
    simp only [numbered] at h
    split at h
    · obtain ⟨h1, h2⟩ := ih h
      refine ⟨h1, fun y hy => ?_⟩
      rcases List.mem_cons.1 hy with rfl | hy
      · omega
      · exact h2 y hy
    · split at h
      · obtain ⟨h1, h2⟩ := ih h
        refine ⟨by omega, fun y hy => ?_⟩
        rcases List.mem_cons.1 hy with rfl | hy
        · omega
        · exact h2 y hy
      · cases h

/-! ## The invariant -/

/-- Conditions on the constraints. -/
structure CtxOk (ctx : MatchCtx V) : Prop where
  trigger : ∀ k, ∀ c ∈ ctx.constraints k, ∀ x ∈ c.vars, x.2 ≤ k

/-- What holds for a matching under construction: `K` variables are bound, those that
are no list variables (`L`) to single trees, their constraints hold, all trees
satisfy `P`. -/
structure MInv (ctx : MatchCtx V) (L : Nat → Bool) (P : Tree V → Prop) (K : Nat) (m : Matching V) :
    Prop where
  bound : ∀ id, (m id).isSome = true ↔ id < K
  single : ∀ id l, L id = false → m id = some l → l.length = 1
  checked : CtxOk ctx → ∀ k, k < K → ∀ c ∈ ctx.constraints k,
    ∃ t, instNode m.get c = [t] ∧ ctx.checker t = true
  mem : ∀ id l, m id = some l → ∀ t ∈ l, P t

theorem MInv.get {ctx : MatchCtx V} {L P K} {m : Matching V} (h : MInv ctx L P K m) {id : Nat}
    (hi : id < K) : m id = some (m.get id) := by
  have := (h.bound id).2 hi
  unfold Matching.get
  cases hm : m id with
  | none => rw [hm] at this; cases this
  | some l => rfl

theorem MInv.none {ctx : MatchCtx V} {L P K} {m : Matching V} (h : MInv ctx L P K m) {id : Nat}
    (hi : ¬ id < K) : m id = .none := by
  have := mt (h.bound id).1 hi
  cases hm : m id with
  | none => rfl
  | some l => rw [hm] at this; simp at this

/-- Later matchings agree with earlier ones. -/
def Matching.Le (m m' : Matching V) : Prop := ∀ id l, m id = some l → m' id = some l

theorem Matching.Le.refl (m : Matching V) : m.Le m := fun _ _ h => h
theorem Matching.Le.trans {a b c : Matching V} (h1 : a.Le b) (h2 : b.Le c) : a.Le c :=
  fun id l h => h2 id l (h1 id l h)

theorem Matching.Le.get {ctx : MatchCtx V} {L P K} {m m' : Matching V} (h : MInv ctx L P K m)
    (hle : m.Le m') {id : Nat} (hi : id < K) : m'.get id = m.get id := by
  have := hle id _ (h.get hi)
  unfold Matching.get at this ⊢
  rw [this]
  rfl

theorem checkConstraints_spec {ctx : MatchCtx V} {m : Matching V} {cs : List (Tree V)} {b : Bool}
    (hv : ∀ c ∈ cs, ∀ x ∈ c.vars, x.2 < maxMappedVars) (h : checkConstraints ctx m cs = .ok b) :
    b = true ↔ ∀ c ∈ cs, ∃ t, instNode m.get c = [t] ∧ ctx.checker t = true := by
  induction cs with
  | nil => cases h; simp
  | cons c cs ih =>
    simp only [checkConstraints] at h
    obtain ⟨t, ht, h⟩ := Res.bind_eq_ok.1 h
    have ht := (transformByMatching_iff m c t (hv c (by simp))).1 ht
    by_cases hc : ctx.checker t = true
    · rw [if_pos hc] at h
      rw [ih (fun c hc => hv c (by simp [hc])) h]
      simp [ht, hc]
    · rw [if_neg hc] at h
      cases h
      simp [ht, hc]

theorem checkConstraints_ok {ctx : MatchCtx V} {m : Matching V} {cs : List (Tree V)}
    (hv : ∀ c ∈ cs, ∃ t, transformByMatching m c = .ok t) : ∃ b, checkConstraints ctx m cs = .ok b := by
  induction cs with
  | nil => exact ⟨true, rfl⟩
  | cons c cs ih =>
    obtain ⟨t, ht⟩ := hv c (by simp)
    obtain ⟨b, hb⟩ := ih fun c hc => hv c (by simp [hc])
    simp only [checkConstraints, ht, Res.bind_ok]
    by_cases hc : ctx.checker t = true
    · rw [if_pos hc]; exact ⟨b, hb⟩
    · rw [if_neg hc]; exact ⟨false, rfl⟩

/-- Binding the next variable. -/
theorem MInv.bind {ctx : MatchCtx V} {L P K} {m : Matching V} (h : MInv ctx L P K m)
    {l : List (Tree V)} (hL : L K = false → l.length = 1) (hP : ∀ t ∈ l, P t)
    (hk : CtxOk ctx → ∀ c ∈ ctx.constraints K,
      ∃ t, instNode (m.bind K l).get c = [t] ∧ ctx.checker t = true) :
    MInv ctx L P (K + 1) (m.bind K l) ∧ m.Le (m.bind K l) := by
  have hle : m.Le (m.bind K l) := by
    intro id l' h'
    unfold Matching.bind
    rw [if_neg]
    · exact h'
    · rintro rfl
      rw [h.none (by omega)] at h'
      cases h'
  refine ⟨⟨?_, ?_, ?_, ?_⟩, hle⟩
  · intro id
    unfold Matching.bind
    split
    · rename_i h'
      subst h'
      simp
    · rw [h.bound]; omega
  · intro id l' h1 h2
    unfold Matching.bind at h2
    split at h2
    · rename_i h'
      subst h'
      cases h2
      exact hL h1
    · exact h.single id l' h1 h2
  · intro hc k hk' c hcc
    by_cases hkK : k = K
    · subst hkK; exact hk hc c hcc
    · obtain ⟨t, h1, h2⟩ := h.checked hc k (by omega) c hcc
      refine ⟨t, ?_, h2⟩
      rw [← h1]
      refine instNode_congr c fun x hx => ?_
      have := hc.trigger k c hcc x hx
      exact Matching.Le.get h hle (by omega)
  · intro id l' h1
    unfold Matching.bind at h1
    split at h1
    · cases h1; exact hP
    · exact h.mem id l' h1

/-! ## Soundness -/

section
variable {ctx : MatchCtx V} {L : Nat → Bool} {P : Tree V → Prop}

/-- What is known about an extension `m'` of `m` by the pattern nodes with variables
`vs` that stand for the trees `u` (instantiated) and `ts` (in the tree). -/
structure Extends (ctx : MatchCtx V) (L : Nat → Bool) (P : Tree V → Prop) (K' : Nat)
    (m m' : Matching V) (u ts : List (Tree V)) : Prop where
  inv : MInv ctx L P K' m'
  le : m.Le m'
  same : List.Forall₂ (Equal ctx.eqV) u ts

theorem extend_sound (hP : ∀ o cs i, P (.op o cs i) → ∀ c ∈ cs, P c) (p : Tree V) :
    ∀ (K K' : Nat) (m : Matching V) (avail : List (Tree V)) (size : Nat) (ms : List (Matching V)),
      numbered K p.vars = some K' → (∀ x ∈ p.vars, isListName x.1 = L x.2) → K' ≤ maxMappedVars →
      MInv ctx L P K m → (∀ t ∈ avail, P t) → (p.isListVar = false → size = 1) →
      extendMatching ctx p m avail size = .ok ms →
      ∀ m' ∈ ms, size ≤ avail.length ∧
        Extends ctx L P K' m m' (instNode m'.get p) (avail.take size) := by
  refine Tree.rec
    (motive_1 := fun p => ∀ (K K' : Nat) (m : Matching V) (avail : List (Tree V)) (size : Nat)
      (ms : List (Matching V)),
      numbered K p.vars = some K' → (∀ x ∈ p.vars, isListName x.1 = L x.2) → K' ≤ maxMappedVars →
      MInv ctx L P K m → (∀ t ∈ avail, P t) → (p.isListVar = false → size = 1) →
      extendMatching ctx p m avail size = .ok ms →
      ∀ m' ∈ ms, size ≤ avail.length ∧
        Extends ctx L P K' m m' (instNode m'.get p) (avail.take size))
    (motive_2 := fun ps => ∀ (K K' : Nat) (m0 : Matching V) (ts : List (Tree V)) (s : Nat)
      (path : List (Nat × Nat)) (ms0 ms : List (Matching V)),
      numbered K (Tree.varsList ps) = some K' →
      (∀ x ∈ Tree.varsList ps, isListName x.1 = L x.2) → K' ≤ maxMappedVars →
      (∀ m ∈ ms0, MInv ctx L P K m) → (∀ t ∈ ts, P t) → s ≤ ts.length →
      SuffixPath m0 ts.length ps s path ts.length →
      fillSuffix ctx ps path ts ms0 = .ok ms →
      ∀ m' ∈ ms, ∃ m ∈ ms0, Extends ctx L P K' m m' (instNodes m'.get ps) (ts.drop s))
    ?_ ?_ ?_ ?_ ?_ p
  · -- constant
    intro v i K K' m avail size ms hn _ _ hm _ hsz h m' hm'
    cases hn
    cases hsz rfl
    simp only [extendMatching, if_true] at h
    cases avail with
    | nil => cases h
    | cons t ts =>
      simp only [Res.ok.injEq] at h
      subst h
      split at hm'
      · rename_i ht
        simp only [List.mem_singleton] at hm'
        subst hm'
        refine ⟨by simp, hm, .refl _, ?_⟩
        simp [instNode, Equal.of_treeEquals _ _ ht]
      · cases hm'
  · -- variable
    intro n id i K K' m avail size ms hn hL hK hm hPa hsz h m' hm'
    have hid : id < maxMappedVars := by
      have := (numbered_le hn).2 (n, id) (by simp [Tree.vars])
      simp only at this
      omega
    simp only [Tree.vars, numbered] at hn
    simp only [extendMatching, if_pos hid] at h
    have hLn : isListName n = L id := hL (n, id) (by simp [Tree.vars])
    have hsz' : L id = false → size = 1 := fun h => hsz (by simp [Tree.isListVar, hLn, h])
    by_cases hb : id < K
    · rw [if_pos hb] at hn
      cases hn
      rw [hm.get hb] at h
      simp only at h
      split at h
      · rename_i hl
        obtain ⟨b, hb', h⟩ := Res.bind_eq_ok.1 h
        simp only [Res.pure_eq, Res.ok.injEq] at h
        subst h
        have hbs := nodelistsEqual_spec hb'
        split at hm'
        · rename_i hbt
          simp only [List.mem_singleton] at hm'
          subst hm'
          obtain ⟨h1, h2⟩ := hbs.1 hbt
          rw [hl] at h1 h2
          refine ⟨h1, hm, .refl _, ?_⟩
          exact h2.imp fun a b => Equal.of_treeEquals a b
        · cases hm'
      · cases h; cases hm'
    · rw [if_neg hb] at hn
      split at hn
      · rename_i hidK
        subst hidK
        cases hn
        rw [hm.none hb] at h
        simp only at h
        split at h
        · rename_i hsa
          obtain ⟨b, hb', h⟩ := Res.bind_eq_ok.1 h
          simp only [Res.pure_eq, Res.ok.injEq] at h
          subst h
          have hbs : CtxOk ctx → _ := fun hc => checkConstraints_spec (fun c hc' x hx => by
            have := hc.trigger _ c hc' x hx
            omega) hb'
          split at hm'
          · rename_i hbt
            simp only [List.mem_singleton] at hm'
            subst hm'
            obtain ⟨h1, h2⟩ := hm.bind (l := avail.take size)
              (fun hl => by
                have := hsz' hl
                simp; omega)
              (fun t ht => hPa t (List.mem_of_mem_take ht)) (fun hc => (hbs hc).1 hbt)
            refine ⟨hsa, h1, h2, ?_⟩
            have : instNode (m.bind id (avail.take size)).get (.var n id i) = avail.take size := by
              simp [instNode, Matching.get, Matching.bind]
            rw [this]
            exact Equal.refls _
          · cases hm'
        · cases h
      · cases hn
  · -- operator
    intro o ps i ih K K' m avail size ms hn hL hK hm hPa hsz h m' hm'
    cases hsz rfl
    simp only [extendMatching, if_true] at h
    cases avail with
    | nil => cases h
    | cons t ts' =>
      cases t with
      | const v j => simp only [Res.ok.injEq] at h; subst h; cases hm'
      | var a b j => simp only [Res.ok.injEq] at h; subst h; cases hm'
      | op q ts j =>
        simp only at h
        split at h
        · rename_i hoq
          obtain ⟨nodes, hnodes, h⟩ := Res.bind_eq_ok.1 h
          obtain ⟨x, hx, ms1, hms1, hm1⟩ := ((Res.flatMap_ok h).2 m').1 hm'
          rw [List.mem_filter] at hx
          obtain ⟨hx, hx2⟩ := hx
          simp only [beq_iff_eq] at hx2
          obtain ⟨y, hy, path, hp1, hp2⟩ := (suffixLevels_spec hnodes x).1 hx
          simp only [List.mem_singleton] at hy
          subst hy
          rw [hx2] at hp2
          simp only [List.nil_append] at hp1
          subst hp1
          obtain ⟨m1, hm1', he⟩ := ih K K' m ts 0 x.1 [m] ms1 hn hL hK (by simpa using hm)
            (hP q ts j (hPa _ (by simp))) (Nat.zero_le _) hp2 hms1 m' hm1
          simp only [List.mem_singleton] at hm1'
          subst hm1'
          refine ⟨by simp, he.inv, he.le, ?_⟩
          have := he.same
          simp only [List.drop_zero] at this
          simp only [instNode, List.take_succ_cons, List.take_zero]
          exact .cons (Equal.op_of hoq this) .nil
        · cases h; cases hm'
  · -- no parameters
    intro K K' m0 ts s path ms0 ms hn _ _ hm _ _ hp h m' hm'
    cases hn
    obtain ⟨rfl, hs⟩ := hp
    simp only [fillSuffix, Res.ok.injEq] at h
    subst h
    refine ⟨m', hm', hm m' hm', .refl _, ?_⟩
    rw [← hs, List.drop_length]
    exact .nil
  · -- parameters
    intro p ps h1 h2 K K' m0 ts s path ms0 ms hn hL hK hm hPt hs hp h m' hm'
    simp only [Tree.varsList, List.mem_append] at hn hL
    obtain ⟨K1, hn1, hn2⟩ := numbered_append hn
    obtain ⟨label, s1, path', ext, rfl, hext, hmem, hp⟩ := hp
    simp only [fillSuffix] at h
    obtain ⟨ms1, hms1, h⟩ := Res.bind_eq_ok.1 h
    obtain ⟨hs1, hlab⟩ := suffixExtend_sum hext hs hmem
    simp only at hs1 hlab
    have hK1 : K1 ≤ maxMappedVars := Nat.le_trans (numbered_le hn2).1 hK
    have key : ∀ m1 ∈ ms1, ∃ m ∈ ms0, label ≤ (ts.drop s).length ∧
        Extends ctx L P K1 m m1 (instNode m1.get p) ((ts.drop s).take label) := by
      intro m1 hm1
      obtain ⟨m, hm0, mm, hmm, hm1⟩ := ((Res.flatMap_ok hms1).2 m1).1 hm1
      obtain ⟨a, b⟩ := h1 K K1 m (ts.drop s) label mm hn1 (fun x hx => hL x (.inl hx)) hK1 (hm m hm0)
        (fun t ht => hPt t (List.mem_of_mem_drop ht)) hlab hmm m1 hm1
      exact ⟨m, hm0, a, b⟩
    -- the sums stay below the number of children
    by_cases hne : ms1 = []
    · exfalso
      subst hne
      clear h1 h2 hms1 hmem hp hext key hn2 hn1
      have : ∀ (ps : List (Tree V)) (path : List (Nat × Nat)) ms, fillSuffix ctx ps path ts [] = .ok ms →
          ms = [] := by
        intro ps
        induction ps with
        | nil => intro path ms h; simp only [fillSuffix, Res.ok.injEq] at h; exact h.symm
        | cons p ps ih =>
          intro path ms h
          cases path with
          | nil => simp only [fillSuffix, Res.ok.injEq] at h; exact h.symm
          | cons x path =>
            obtain ⟨a, b⟩ := x
            simp only [fillSuffix, Res.flatMap, Res.bind_ok] at h
            exact ih path ms h
      rw [this _ _ _ h] at hm'
      cases hm'
    · obtain ⟨m1, hm1⟩ := List.exists_mem_of_ne_nil _ hne
      obtain ⟨_, _, hlen, -⟩ := key m1 hm1
      simp only [List.length_drop] at hlen
      obtain ⟨m1, hm1, he⟩ := h2 K1 K' m0 ts s1 path' ms1 ms hn2 (fun x hx => hL x (.inr hx)) hK
        (fun m1 hm1 => (key m1 hm1).choose_spec.2.2.inv) hPt (by omega) hp h m' hm'
      obtain ⟨m, hm0, _, he1⟩ := key m1 hm1
      refine ⟨m, hm0, he.inv, he1.le.trans he.le, ?_⟩
      have e1 : instNode m'.get p = instNode m1.get p := by
        refine instNode_congr p fun x hx => ?_
        exact Matching.Le.get he1.inv he.le ((numbered_le hn1).2 x hx)
      have e2 : ts.drop s = (ts.drop s).take label ++ ts.drop s1 := by
        rw [hs1, ← List.drop_drop, List.take_append_drop]
      rw [e2]
      simp only [instNodes, e1]
      exact List.rel_append he1.same he.same

/-! ## Definedness -/

/-- No list variable with an id below `K` is followed by another list variable. -/
def ApartList (K : Nat) (cs : List (Tree V)) : Prop :=
  ∀ a b n x i, cs = a ++ .var n x i :: b → isListName n = true → x < K →
    ∀ c ∈ b, c.isListVar = false

mutual
/-- In no parameter list is a list variable that was bound before followed by another
one. -/
def ApartId (K : Nat) : Tree V → Prop
  | .const _ _ => True
  | .var _ _ _ => True
  | .op _ cs _ => ApartList K cs ∧ ApartIdAll K cs
def ApartIdAll (K : Nat) : List (Tree V) → Prop
  | [] => True
  | c :: cs => ApartId K c ∧ ∀ K1, numbered K c.vars = some K1 → ApartIdAll K1 cs
end

theorem ApartList.tail {K : Nat} {c : Tree V} {cs : List (Tree V)} (h : ApartList K (c :: cs)) :
    ApartList K cs := fun a b n x i h1 => h (c :: a) b n x i (by rw [h1]; rfl)

theorem isListVar_iff {p : Tree V} (h : p.isListVar = true) :
    ∃ n x i, p = .var n x i ∧ isListName n = true := by
  cases p with
  | var n x i => exact ⟨n, x, i, rfl, h⟩
  | const => cases h
  | op => cases h

theorem vars_lt {K K' : Nat} {ps : List (Tree V)} (h : numbered K (Tree.varsList ps) = some K')
    (hK : K' ≤ maxMappedVars) : ∀ p ∈ ps, p.isListVar = true → p.varId < maxMappedVars := by
  intro p hp hl
  obtain ⟨n, x, i, rfl, -⟩ := isListVar_iff hl
  have : (n, x) ∈ Tree.varsList ps := by
    clear h
    induction ps with
    | nil => cases hp
    | cons c cs ih =>
      simp only [Tree.varsList, List.mem_append]
      rcases List.mem_cons.1 hp with rfl | hp
      · exact .inl (by simp [Tree.vars])
      · exact .inr (ih hp)
  have := (numbered_le h).2 _ this
  simp only [Tree.varId] at this ⊢
  omega

theorem suffixExtend_ok {m : Matching V} {n : Nat} {p : Tree V} {last : Bool} {s : Nat}
    (hp : p.isListVar = true → p.varId < maxMappedVars) (h : s ≤ n ∨ p.isListVar = false) :
    ∃ ext, suffixExtend m n p last s = .ok ext := by
  unfold suffixExtend
  split
  · rename_i hl
    rw [if_pos (hp hl)]
    rcases h with h | h
    · split
      · exact ⟨_, rfl⟩
      · split
        · exact ⟨_, rfl⟩
        · rw [if_pos (by omega)]; exact ⟨_, rfl⟩
    · rw [h] at hl; cases hl
  · split <;> exact ⟨_, rfl⟩

/-- The sum exceeds the number of children only after a list that was bound. -/
theorem suffixExtend_le {m : Matching V} {n : Nat} {p : Tree V} {last : Bool} {s : Nat}
    {ext : List (Nat × Nat)} (h : suffixExtend m n p last s = .ok ext) (hs : s ≤ n) {x : Nat × Nat}
    (hx : x ∈ ext) : x.2 ≤ n ∨ ∃ nm id i, p = .var nm id i ∧ isListName nm = true ∧
      (m id).isSome = true := by
  unfold suffixExtend at h
  split at h
  · rename_i hp
    split at h
    · split at h
      · rename_i heq _
        obtain ⟨nm, id, i, rfl, h'⟩ := isListVar_iff hp
        simp only [Tree.varId] at heq
        exact .inr ⟨nm, id, i, rfl, h', by simp [heq]⟩
      · split at h
        · cases h
          simp only [List.mem_singleton] at hx
          subst hx
          exact .inl (Nat.le_refl _)
        · split at h
          · cases h
            obtain ⟨i, hi, rfl⟩ := List.mem_map.1 hx
            simp only [List.mem_range] at hi
            exact .inl (by simp only; omega)
          · cases h
    · cases h
  · split at h
    · cases h
      simp only [List.mem_singleton] at hx
      subst hx
      exact .inl (by simp only; omega)
    · cases h; cases hx

theorem suffixLevels_ok {m : Matching V} {n K : Nat} (hm : ∀ id, (m id).isSome = true ↔ id < K)
    {ps : List (Tree V)} (hid : ∀ p ∈ ps, p.isListVar = true → p.varId < maxMappedVars)
    (ha : ApartList K ps) {nodes : List (List (Nat × Nat) × Nat)}
    (hn : ∀ x ∈ nodes, x.2 ≤ n ∨ ∀ p ∈ ps, p.isListVar = false) :
    ∃ nodes', suffixLevels m n ps nodes = .ok nodes' := by
  induction ps generalizing nodes with
  | nil => exact ⟨nodes, rfl⟩
  | cons p ps ih =>
    simp only [suffixLevels]
    have h1 : ∀ x ∈ nodes, ∃ ext, suffixExtend m n p ps.isEmpty x.2 = .ok ext := by
      intro x hx
      refine suffixExtend_ok (hid p (by simp)) ?_
      rcases hn x hx with h | h
      · exact .inl h
      · exact .inr (h p (by simp))
    obtain ⟨mid, hmid⟩ := Res.flatMap_isOk (l := nodes) (f := fun x => do
      let ext ← suffixExtend m n p ps.isEmpty x.2
      pure (ext.map fun y => (x.1 ++ [(x.2, y.1)], y.2))) (by
        intro x hx
        obtain ⟨ext, hext⟩ := h1 x hx
        exact ⟨_, by rw [hext]; rfl⟩)
    rw [hmid]
    refine ih (fun q hq => hid q (by simp [hq])) ha.tail ?_
    intro y hy
    obtain ⟨x, hx, b, hb, hy⟩ := ((Res.flatMap_ok hmid).2 y).1 hy
    obtain ⟨ext, hext, hb⟩ := Res.bind_eq_ok.1 hb
    simp only [Res.pure_eq, Res.ok.injEq] at hb
    subst hb
    obtain ⟨z, hz, rfl⟩ := List.mem_map.1 hy
    rcases hn x hx with h | h
    · rcases suffixExtend_le hext h hz with h' | ⟨nm, id, i, rfl, h2, h3⟩
      · exact .inl h'
      · exact .inr (ha [] ps nm id i rfl h2 ((hm id).1 h3))
    · exact .inr fun q hq => h q (by simp [hq])

/-- On a path that ends at the number of children all sums are in range. -/
theorem SuffixPath.le {m : Matching V} {n K : Nat} (hm : ∀ id, (m id).isSome = true ↔ id < K)
    {p : Tree V} {ps : List (Tree V)} (ha : ApartList K (p :: ps)) {s s1 : Nat} (hs : s ≤ n)
    {ext : List (Nat × Nat)} {label : Nat} {path : List (Nat × Nat)}
    (hext : suffixExtend m n p ps.isEmpty s = .ok ext) (hmem : (label, s1) ∈ ext)
    (hp : SuffixPath m n ps s1 path n) : s1 ≤ n := by
  rcases suffixExtend_le hext hs hmem with h | ⟨nm, id, i, rfl, h2, h3⟩
  · exact h
  · have hno := ha [] ps nm id i rfl h2 ((hm id).1 h3)
    cases ps with
    | nil =>
      obtain ⟨-, h⟩ := hp
      omega
    | cons q qs =>
      obtain ⟨label', s2, path', ext', -, hext', hmem', -⟩ := hp
      by_contra hlt
      unfold suffixExtend at hext'
      rw [hno q (by simp)] at hext'
      simp only [Bool.false_eq_true, if_false] at hext'
      rw [if_neg (by omega)] at hext'
      cases hext'
      cases hmem'

theorem extend_ok (hc : CtxOk ctx)
    (hr : ∀ k, ∀ c ∈ ctx.constraints k, ∀ n x i, c = .var n x i → L x = false) (p : Tree V) :
    ∀ (K K' : Nat) (m : Matching V) (avail : List (Tree V)) (size : Nat),
      numbered K p.vars = some K' → (∀ x ∈ p.vars, isListName x.1 = L x.2) → K' ≤ maxMappedVars →
      MInv ctx L (fun _ => True) K m → size ≤ avail.length → (p.isListVar = false → size = 1) →
      ApartId K p → ∃ ms, extendMatching ctx p m avail size = .ok ms := by
  refine Tree.rec
    (motive_1 := fun p => ∀ (K K' : Nat) (m : Matching V) (avail : List (Tree V)) (size : Nat),
      numbered K p.vars = some K' → (∀ x ∈ p.vars, isListName x.1 = L x.2) → K' ≤ maxMappedVars →
      MInv ctx L (fun _ => True) K m → size ≤ avail.length → (p.isListVar = false → size = 1) →
      ApartId K p → ∃ ms, extendMatching ctx p m avail size = .ok ms)
    (motive_2 := fun ps => ∀ (K0 K K' : Nat) (m0 : Matching V) (ts : List (Tree V)) (s : Nat)
      (path : List (Nat × Nat)) (ms0 : List (Matching V)),
      (∀ id, (m0 id).isSome = true ↔ id < K0) → numbered K (Tree.varsList ps) = some K' →
      (∀ x ∈ Tree.varsList ps, isListName x.1 = L x.2) → K' ≤ maxMappedVars →
      (∀ m ∈ ms0, MInv ctx L (fun _ => True) K m) → s ≤ ts.length →
      SuffixPath m0 ts.length ps s path ts.length → ApartList K0 ps → ApartIdAll K ps →
      ∃ ms, fillSuffix ctx ps path ts ms0 = .ok ms)
    ?_ ?_ ?_ ?_ ?_ p
  · -- constant
    intro v i K K' m avail size _ _ _ _ hsa hsz _
    cases hsz rfl
    simp only [extendMatching, if_true]
    cases avail with
    | nil => simp at hsa
    | cons t ts => exact ⟨_, rfl⟩
  · -- variable
    intro n id i K K' m avail size hn hL hK hm hsa hsz _
    have hid : id < maxMappedVars := by
      have := (numbered_le hn).2 (n, id) (by simp [Tree.vars])
      simp only at this
      omega
    simp only [Tree.vars, numbered] at hn
    simp only [extendMatching, if_pos hid]
    have hLn : isListName n = L id := hL (n, id) (by simp [Tree.vars])
    have hsz' : L id = false → size = 1 := fun h => hsz (by simp [Tree.isListVar, hLn, h])
    by_cases hb : id < K
    · rw [hm.get hb]
      simp only
      split
      · rename_i hl
        obtain ⟨b, hb'⟩ := nodelistsEqual_ok ctx.eqV (m.get id) avail (by omega)
        rw [hb']
        exact ⟨_, rfl⟩
      · exact ⟨_, rfl⟩
    · rw [if_neg hb] at hn
      split at hn
      · rename_i hidK
        subst hidK
        rw [hm.none hb]
        simp only [if_pos hsa]
        obtain ⟨b, hb'⟩ := checkConstraints_ok (ctx := ctx) (m := m.bind id (avail.take size))
          (cs := ctx.constraints id) (by
            intro c hcc
            refine transformByMatching_op _ c ?_ ?_
            · intro x hx
              have := hc.trigger _ c hcc x hx
              omega
            · rintro n' x i' rfl
              have h1 := hr _ _ hcc n' x i' rfl
              have h2 : x ≤ id := hc.trigger _ _ hcc (n', x) (by simp [Tree.vars])
              rw [← List.length_eq_one_iff]
              unfold Matching.get Matching.bind
              split
              · rename_i hx
                subst hx
                have := hsz' h1
                simp; omega
              · rename_i hx
                have hg := hm.get (id := x) (by omega)
                rw [hg]
                exact hm.single x _ h1 hg)
        rw [hb']
        exact ⟨_, rfl⟩
      · cases hn
  · -- operator
    intro o ps i ih K K' m avail size hn hL hK hm hsa hsz ha
    cases hsz rfl
    simp only [extendMatching, if_true]
    cases avail with
    | nil => simp at hsa
    | cons t ts' =>
      cases t with
      | const v j => exact ⟨_, rfl⟩
      | var a b j => exact ⟨_, rfl⟩
      | op q ts j =>
        simp only
        split
        · obtain ⟨nodes, hnodes⟩ := suffixLevels_ok (n := ts.length) (nodes := [([], 0)]) hm.bound
            (vars_lt hn hK) ha.1 (by simp)
          rw [hnodes]
          refine Res.flatMap_isOk fun x hx => ?_
          rw [List.mem_filter] at hx
          obtain ⟨hx, hx2⟩ := hx
          simp only [beq_iff_eq] at hx2
          obtain ⟨y, hy, path, hp1, hp2⟩ := (suffixLevels_spec hnodes x).1 hx
          simp only [List.mem_singleton] at hy
          subst hy
          rw [hx2] at hp2
          simp only [List.nil_append] at hp1
          subst hp1
          exact ih K K K' m ts 0 x.1 [m] hm.bound hn hL hK (by simpa using hm) (Nat.zero_le _) hp2
            ha.1 ha.2
        · exact ⟨_, rfl⟩
  · -- no parameters
    intro K0 K K' m0 ts s path ms0 _ _ _ _ _ _ _ _ _
    exact ⟨ms0, by simp only [fillSuffix]⟩
  · -- parameters
    intro p ps h1 h2 K0 K K' m0 ts s path ms0 hb hn hL hK hm hs hp ha hall
    simp only [Tree.varsList, List.mem_append] at hn hL
    obtain ⟨K1, hn1, hn2⟩ := numbered_append hn
    obtain ⟨label, s1, path', ext, rfl, hext, hmem, hp⟩ := hp
    have hK1 : K1 ≤ maxMappedVars := Nat.le_trans (numbered_le hn2).1 hK
    obtain ⟨hs1, hlab⟩ := suffixExtend_sum hext hs hmem
    simp only at hs1 hlab
    have hle := SuffixPath.le hb ha hs hext hmem hp
    simp only [fillSuffix]
    obtain ⟨ms1, hms1⟩ := Res.flatMap_isOk (l := ms0)
      (f := fun m => extendMatching ctx p m (ts.drop s) label) (by
        intro m hm0
        exact h1 K K1 m (ts.drop s) label hn1 (fun x hx => hL x (.inl hx)) hK1 (hm m hm0)
          (by simp; omega) hlab hall.1)
    rw [hms1]
    refine h2 K0 K1 K' m0 ts s1 path' ms1 hb hn2 (fun x hx => hL x (.inr hx)) hK ?_ hle hp ha.tail
      (hall.2 K1 hn1)
    intro m1 hm1
    obtain ⟨m, hm0, mm, hmm, hm1⟩ := ((Res.flatMap_ok hms1).2 m1).1 hm1
    exact (extend_sound (P := fun _ => True) (fun _ _ _ _ _ _ => trivial) p K K1 m (ts.drop s) label mm
      hn1 (fun x hx => hL x (.inl hx)) hK1 (hm m hm0) (fun _ _ => trivial) hlab hmm m1 hm1).2.inv

/-! ## Completeness -/

/-- `tree_equals` as a relation. -/
def TEq (eqV : V → V → Bool) (a b : Tree V) : Prop := treeEquals eqV a b = true

/-- The matching agrees with an assignment as far as it goes. -/
def Agree (eqV : V → V → Bool) (m : Matching V) (f : Nat → List (Tree V)) : Prop :=
  ∀ id l, m id = some l → List.Forall₂ (TEq eqV) l (f id)

theorem instNode_teq {eqV : V → V → Bool} (hr : ∀ t : Tree V, TEq eqV t t)
    {f g : Nat → List (Tree V)} (t : Tree V) :
    (∀ x ∈ t.vars, List.Forall₂ (TEq eqV) (f x.2) (g x.2)) →
    List.Forall₂ (TEq eqV) (instNode f t) (instNode g t) := by
  refine Tree.rec
    (motive_1 := fun t => (∀ x ∈ t.vars, List.Forall₂ (TEq eqV) (f x.2) (g x.2)) →
      List.Forall₂ (TEq eqV) (instNode f t) (instNode g t))
    (motive_2 := fun l => (∀ x ∈ Tree.varsList l, List.Forall₂ (TEq eqV) (f x.2) (g x.2)) →
      List.Forall₂ (TEq eqV) (instNodes f l) (instNodes g l))
    ?_ ?_ ?_ ?_ ?_ t
  · intro v i _; exact .cons (hr _) .nil
  · intro n x i h; exact h (n, x) (by simp [Tree.vars])
  · intro o cs i ih h
    refine .cons ?_ .nil
    exact treeEquals_op.2 ⟨rfl, ih h⟩
  · intro _; exact .nil
  · intro c cs h1 h2 h
    simp only [Tree.varsList, List.mem_append] at h
    exact List.rel_append (h1 fun x hx => h x (.inl hx)) (h2 fun x hx => h x (.inr hx))

theorem forall2_trans {α : Type} {R : α → α → Prop} (ht : ∀ a b c, R a b → R b c → R a c)
    {a b c : List α} (h1 : List.Forall₂ R a b) (h2 : List.Forall₂ R b c) : List.Forall₂ R a c := by
  induction h1 generalizing c with
  | nil => exact h2
  | cons h _ ih =>
    cases h2 with
    | cons h' h2 => exact .cons (ht _ _ _ h h') (ih h2)

theorem forall2_append {α β : Type} {R : α → β → Prop} {a b : List α} {c : List β}
    (h : List.Forall₂ R (a ++ b) c) :
    a.length ≤ c.length ∧ List.Forall₂ R a (c.take a.length) ∧
      List.Forall₂ R b (c.drop a.length) := by
  have hl := h.length_eq
  rw [List.length_append] at hl
  refine ⟨by omega, ?_, ?_⟩
  · have := List.forall₂_take a.length h
    rwa [List.take_left] at this
  · have := List.forall₂_drop a.length h
    rwa [List.drop_left] at this

theorem instNode_single {f : Nat → List (Tree V)} {p : Tree V} (hp : p.isListVar = false)
    (h : ∀ x ∈ p.vars, isListName x.1 = false → (f x.2).length = 1) : (instNode f p).length = 1 := by
  cases p with
  | const => rfl
  | var n x i => exact h (n, x) (by simp [Tree.vars]) hp
  | op => rfl

/-- The labels given by an assignment are among those tried. -/
theorem suffixExtend_mem {eqV : V → V → Bool} {m : Matching V} {f : Nat → List (Tree V)}
    (ha : Agree eqV m f) {n s : Nat} {p : Tree V} {last : Bool} {ext : List (Nat × Nat)}
    (h : suffixExtend m n p last s = .ok ext) (hs : s + (instNode f p).length ≤ n)
    (hlast : last = true → s + (instNode f p).length = n)
    (h1 : p.isListVar = false → (instNode f p).length = 1) :
    ((instNode f p).length, s + (instNode f p).length) ∈ ext := by
  unfold suffixExtend at h
  split at h
  · rename_i hp
    obtain ⟨nm, id, i, rfl, -⟩ := isListVar_iff hp
    simp only [instNode] at hs hlast h1 ⊢
    split at h
    · split at h
      · rename_i l heq _
        cases h
        rw [(ha id l heq).length_eq]
        simp
      · split at h
        · have := hlast (by assumption)
          rw [if_pos (by omega)] at h
          cases h
          simp only [List.mem_singleton, Prod.mk.injEq]
          omega
        · rw [if_pos (by omega)] at h
          cases h
          refine List.mem_map.2 ⟨(f id).length, ?_, rfl⟩
          rw [List.mem_range]
          omega
    · cases h
  · rename_i hp
    have := h1 (by simpa using hp)
    rw [this] at hs ⊢
    rw [if_pos (by omega)] at h
    cases h
    simp

theorem extend_complete (hc : CtxOk ctx) {f : Nat → List (Tree V)}
    (hr : ∀ t : Tree V, TEq ctx.eqV t t)
    (ht : ∀ a b c : Tree V, TEq ctx.eqV a b → TEq ctx.eqV b c → TEq ctx.eqV a c)
    (hsy : ∀ a b : Tree V, TEq ctx.eqV a b → TEq ctx.eqV b a)
    (hchk : ∀ a b : Tree V, TEq ctx.eqV a b → ctx.checker a = true → ctx.checker b = true)
    (hf : ∀ k, ∀ c ∈ ctx.constraints k, ∃ t, instNode f c = [t] ∧ ctx.checker t = true)
    (p : Tree V) :
    ∀ (K K' : Nat) (m : Matching V) (avail : List (Tree V)) (size : Nat) (ms : List (Matching V)),
      numbered K p.vars = some K' → (∀ x ∈ p.vars, isListName x.1 = L x.2) → K' ≤ maxMappedVars →
      MInv ctx L (fun _ => True) K m → Agree ctx.eqV m f →
      (∀ x ∈ p.vars, isListName x.1 = false → (f x.2).length = 1) →
      size ≤ avail.length → List.Forall₂ (TEq ctx.eqV) (instNode f p) (avail.take size) →
      extendMatching ctx p m avail size = .ok ms →
      ∃ m' ∈ ms, MInv ctx L (fun _ => True) K' m' ∧ Agree ctx.eqV m' f := by
  have agree_step : ∀ (p : Tree V) (K K' : Nat) (m : Matching V) (avail : List (Tree V)) (size : Nat)
      (ms : List (Matching V)),
      numbered K p.vars = some K' → (∀ x ∈ p.vars, isListName x.1 = L x.2) → K' ≤ maxMappedVars →
      MInv ctx L (fun _ => True) K m → (p.isListVar = false → size = 1) →
      extendMatching ctx p m avail size = .ok ms →
      ∀ m' ∈ ms, MInv ctx L (fun _ => True) K' m' := by
    intro p K K' m avail size ms h1 h2 h3 h4 h5 h6 m' hm'
    exact (extend_sound (P := fun _ => True) (fun _ _ _ _ _ _ => trivial) p K K' m avail size ms
      h1 h2 h3 h4 (fun _ _ => trivial) h5 h6 m' hm').2.inv
  refine Tree.rec
    (motive_1 := fun p => ∀ (K K' : Nat) (m : Matching V) (avail : List (Tree V)) (size : Nat)
      (ms : List (Matching V)),
      numbered K p.vars = some K' → (∀ x ∈ p.vars, isListName x.1 = L x.2) → K' ≤ maxMappedVars →
      MInv ctx L (fun _ => True) K m → Agree ctx.eqV m f →
      (∀ x ∈ p.vars, isListName x.1 = false → (f x.2).length = 1) →
      size ≤ avail.length → List.Forall₂ (TEq ctx.eqV) (instNode f p) (avail.take size) →
      extendMatching ctx p m avail size = .ok ms →
      ∃ m' ∈ ms, MInv ctx L (fun _ => True) K' m' ∧ Agree ctx.eqV m' f)
    (motive_2 := fun ps => ∀ (K K' : Nat) (m0 : Matching V) (ts : List (Tree V)) (s : Nat),
      numbered K (Tree.varsList ps) = some K' →
      (∀ x ∈ Tree.varsList ps, isListName x.1 = L x.2) → K' ≤ maxMappedVars →
      (∀ x ∈ Tree.varsList ps, isListName x.1 = false → (f x.2).length = 1) →
      s ≤ ts.length → List.Forall₂ (TEq ctx.eqV) (instNodes f ps) (ts.drop s) →
      Agree ctx.eqV m0 f →
      (∀ s', s' ≤ ts.length → ∀ a p b, ps = a ++ p :: b →
        ∃ ext, suffixExtend m0 ts.length p b.isEmpty s' = .ok ext) →
      ∃ path, SuffixPath m0 ts.length ps s path ts.length ∧
        ∀ (ms0 ms : List (Matching V)), (∀ m ∈ ms0, MInv ctx L (fun _ => True) K m) →
          (∃ m ∈ ms0, Agree ctx.eqV m f) → fillSuffix ctx ps path ts ms0 = .ok ms →
          ∃ m' ∈ ms, MInv ctx L (fun _ => True) K' m' ∧ Agree ctx.eqV m' f)
    ?_ ?_ ?_ ?_ ?_ p
  · -- constant
    intro v i K K' m avail size ms hn _ _ hm hag _ hsa hsame h
    cases hn
    have hl := hsame.length_eq
    simp only [instNode, List.length_singleton, List.length_take] at hl
    have : size = 1 := by omega
    subst this
    simp only [extendMatching, if_true] at h
    cases avail with
    | nil => cases h
    | cons t ts =>
      simp only [Res.ok.injEq] at h
      subst h
      simp only [instNode, List.take_succ_cons, List.take_zero] at hsame
      cases hsame with
      | cons h1 _ =>
        rw [if_pos (show treeEquals _ _ _ = true from h1)]
        exact ⟨m, by simp, hm, hag⟩
  · -- variable
    intro n id i K K' m avail size ms hn hL hK hm hag hf1 hsa hsame h
    have hinv := agree_step (.var n id i) K K' m avail size ms hn hL hK hm
    have hid : id < maxMappedVars := by
      have := (numbered_le hn).2 (n, id) (by simp [Tree.vars])
      simp only at this
      omega
    have hlen := hsame.length_eq
    simp only [instNode, List.length_take] at hlen
    have hsz : (Tree.var n id i : Tree V).isListVar = false → size = 1 := by
      intro hl
      have := hf1 (n, id) (by simp [Tree.vars]) hl
      simp only at this
      omega
    have hinv := hinv hsz h
    simp only [Tree.vars, numbered] at hn
    simp only [extendMatching, if_pos hid] at h
    simp only [instNode] at hsame
    by_cases hb : id < K
    · rw [if_pos hb] at hn
      cases hn
      have hg := hm.get hb
      rw [hg] at h
      simp only at h
      have ha := hag id _ hg
      have hls : (m.get id).length = size := by rw [ha.length_eq]; omega
      rw [if_pos hls] at h
      obtain ⟨b, hb', h⟩ := Res.bind_eq_ok.1 h
      simp only [Res.pure_eq, Res.ok.injEq] at h
      subst h
      have : b = true := by
        rw [nodelistsEqual_spec hb']
        exact ⟨by omega, by rw [hls]; exact forall2_trans ht ha hsame⟩
      subst this
      exact ⟨m, by simp, hm, hag⟩
    · rw [if_neg hb] at hn
      split at hn
      · rename_i hidK
        subst hidK
        cases hn
        rw [hm.none hb] at h
        simp only [if_pos hsa] at h
        obtain ⟨b, hb', h⟩ := Res.bind_eq_ok.1 h
        simp only [Res.pure_eq, Res.ok.injEq] at h
        have hag' : Agree ctx.eqV (m.bind id (avail.take size)) f := by
          intro j l hj
          unfold Matching.bind at hj
          split at hj
          · rename_i hji
            subst hji
            cases hj
            exact (List.Forall₂.flip hsame).imp fun a b => hsy b a
          · exact hag j l hj
        have : b = true := by
          rw [checkConstraints_spec (fun c hc' x hx => by
            have := hc.trigger _ c hc' x hx
            omega) hb']
          intro c hcc
          obtain ⟨t, h1, h2⟩ := hf _ c hcc
          have h3 : List.Forall₂ (TEq ctx.eqV) (instNode f c)
              (instNode (m.bind id (avail.take size)).get c) := by
            refine instNode_teq hr c fun x hx => ?_
            have hx' := hc.trigger _ c hcc x hx
            have hsome : (m.bind id (avail.take size)) x.2
                = some ((m.bind id (avail.take size)).get x.2) := by
              unfold Matching.get Matching.bind
              split
              · rfl
              · rename_i hne
                rw [hm.get (id := x.2) (by omega)]
                rfl
            exact (List.Forall₂.flip (hag' _ _ hsome)).imp fun a b => hsy b a
          rw [h1] at h3
          generalize instNode (m.bind id (avail.take size)).get c = z at h3
          cases h3 with
          | cons h4 h5 =>
            cases h5
            exact ⟨_, rfl, hchk _ _ h4 h2⟩
        subst this
        simp only [if_true] at h
        subst h
        exact ⟨_, by simp, hinv _ (by simp), hag'⟩
      · cases hn
  · -- operator
    intro o ps i ih K K' m avail size ms hn hL hK hm hag hf1 hsa hsame h
    have hl := hsame.length_eq
    simp only [instNode, List.length_singleton, List.length_take] at hl
    have : size = 1 := by omega
    subst this
    simp only [extendMatching, if_true] at h
    cases avail with
    | nil => cases h
    | cons t ts' =>
      simp only [instNode, List.take_succ_cons, List.take_zero] at hsame
      cases hsame with
      | cons hsame _ =>
      cases t with
      | const v j => simp [TEq, treeEquals] at hsame
      | var a b j => simp [TEq, treeEquals] at hsame
      | op q ts j =>
        obtain ⟨hoq, hsame⟩ := treeEquals_op.1 hsame
        simp only [if_pos hoq] at h
        obtain ⟨nodes, hnodes, h⟩ := Res.bind_eq_ok.1 h
        have hids := vars_lt hn hK
        obtain ⟨path, hpath, hfill⟩ := ih K K' m ts 0 hn hL hK hf1 (Nat.zero_le _)
          (by rw [List.drop_zero]; exact hsame) hag (by
            intro s' hs' a p b hab
            exact suffixExtend_ok (hids p (by simp [hab])) (.inl hs'))
        have hmem : (path, ts.length) ∈ nodes :=
          (suffixLevels_spec hnodes _).2 ⟨([], 0), by simp, path, by simp, hpath⟩
        have hmem' : (path, ts.length) ∈ nodes.filter fun x => x.2 == ts.length :=
          List.mem_filter.2 ⟨hmem, by simp⟩
        obtain ⟨h1, h2⟩ := Res.flatMap_ok h
        obtain ⟨ms1, hms1⟩ := h1 _ hmem'
        obtain ⟨m', hm', hres⟩ := hfill [m] ms1 (by simpa using hm) ⟨m, by simp, hag⟩ hms1
        exact ⟨m', (h2 m').2 ⟨_, hmem', ms1, hms1, hm'⟩, hres⟩
  · -- no parameters
    intro K K' m0 ts s hn _ _ _ hs hsame _ _
    cases hn
    have := hsame.length_eq
    simp only [instNodes, List.length_nil, List.length_drop] at this
    refine ⟨[], ⟨rfl, by omega⟩, ?_⟩
    intro ms0 ms hm hag h
    simp only [fillSuffix, Res.ok.injEq] at h
    subst h
    obtain ⟨m, hm0, ha⟩ := hag
    exact ⟨m, hm0, hm m hm0, ha⟩
  · -- parameters
    intro p ps h1 h2 K K' m0 ts s hn hL hK hf1 hs hsame hag0 hext
    simp only [Tree.varsList, List.mem_append] at hn hL hf1
    obtain ⟨K1, hn1, hn2⟩ := numbered_append hn
    have hK1 : K1 ≤ maxMappedVars := Nat.le_trans (numbered_le hn2).1 hK
    simp only [instNodes] at hsame
    obtain ⟨hle, hsame1, hsame2⟩ := forall2_append hsame
    rw [List.drop_drop] at hsame2
    simp only [List.length_drop] at hle
    obtain ⟨ext, hext'⟩ := hext s hs [] p ps rfl
    have hsingle : p.isListVar = false → (instNode f p).length = 1 :=
      fun hp => instNode_single hp fun x hx => hf1 x (.inl hx)
    have hmem := suffixExtend_mem hag0 hext' (by omega) (by
      intro hl
      have : ps = [] := by simpa using hl
      subst this
      have := hsame2.length_eq
      simp only [instNodes, List.length_nil, List.length_drop] at this
      omega) hsingle
    obtain ⟨path, hpath, hfill⟩ := h2 K1 K' m0 ts (s + (instNode f p).length) hn2
      (fun x hx => hL x (.inr hx)) hK (fun x hx => hf1 x (.inr hx)) (by omega) hsame2 hag0
      (fun s' hs' a q b hab => hext s' hs' (p :: a) q b (by rw [hab]; rfl))
    refine ⟨(s, (instNode f p).length) :: path, ⟨_, _, path, ext, rfl, hext', hmem, hpath⟩, ?_⟩
    intro ms0 ms hm hag h
    simp only [fillSuffix] at h
    obtain ⟨ms1, hms1, h⟩ := Res.bind_eq_ok.1 h
    obtain ⟨g1, g2⟩ := Res.flatMap_ok hms1
    refine hfill ms1 ms ?_ ?_ h
    · intro m1 hm1
      obtain ⟨m, hm0, mm, hmm, hm1⟩ := (g2 m1).1 hm1
      exact agree_step p K K1 m _ _ mm hn1 (fun x hx => hL x (.inl hx)) hK1 (hm m hm0) hsingle hmm m1 hm1
    · obtain ⟨m, hm0, ha⟩ := hag
      obtain ⟨mm, hmm⟩ := g1 m hm0
      obtain ⟨m1, hm1, -, ha1⟩ := h1 K K1 m (ts.drop s) _ mm hn1 (fun x hx => hL x (.inl hx)) hK1
        (hm m hm0) ha (fun x hx => hf1 x (.inl hx)) (by simpa using hle) hsame1 hmm
      exact ⟨m1, (g2 m1).2 ⟨m, hm0, mm, hmm, hm1⟩, ha1⟩

end

end Verif
