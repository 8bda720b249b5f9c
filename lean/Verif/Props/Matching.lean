import Verif.Lemmas.Rewrite
import Verif.Props.TreeUtil

/-!
# C26–C28: matching

A pattern is given as a tree `t` with constraints `cs`; `get_pattern` prepares it.
-/

namespace Verif.MatchProps
open Verif TreeProps
variable {V : Type}

/-- The assignment of names that a matching stands for: the k-th variable of the
pattern, counted by first occurrence, has the k-th entry of the matching. -/
def Assigns (t : Tree V) (m : Matching V) (σ : Str → Option (List (Tree V))) : Prop :=
  ∀ vs, FirstOccurrences t.varNames vs → ∀ k (hk : k < vs.length), σ vs[k] = m k

theorem Assigns.iff {t : Tree V} {cs : List (Tree V)} {W : List Str} {pat : Pattern V}
    (hp : PatternOf t cs W pat) {m : Matching V} {σ : Str → Option (List (Tree V))}
    (h : Assigns t m σ) : ∀ n ∈ t.names, σ n = m (W.idxOf n) := by
  intro n hn
  have hW : FirstOccurrences t.varNames W := by
    rw [varNames_eq, hp.names]; exact addNew_first _
  have hlt := List.idxOf_lt_length_of_mem (hp.mem.2 hn)
  have := h W hW _ hlt
  rwa [List.getElem_idxOf] at this

/-- Every matching stands for an assignment. -/
theorem C26_assignment (t : Tree V) (m : Matching V) : ∃ σ, Assigns t m σ := by
  refine ⟨fun n => m ((addNew [] t.names).idxOf n), ?_⟩
  intro vs hvs k hk
  have he : vs = addNew [] t.names := by
    rw [varNames_eq] at hvs
    exact hvs.unique (addNew_first _)
  subst he
  simp only
  rw [List.Nodup.idxOf_getElem hvs.nodup]

theorem init_inv (ctx : MatchCtx V) (L : Nat → Bool) (P : Tree V → Prop) :
    MInv ctx L P 0 Matching.empty :=
  ⟨fun id => by simp [Matching.empty], fun id l _ h => (by cases h),
   fun _ k hk => absurd hk (Nat.not_lt_zero k), fun id l h => (by cases h)⟩

theorem extends_of {t : Tree V} {cs : List (Tree V)} {pat : Pattern V}
    (hp : getPattern t cs = .ok pat) (eqV : V → V → Bool) (checker : Tree V → Bool) (u : Tree V)
    (P : Tree V → Prop) (hP : ∀ o cs i, P (.op o cs i) → ∀ c ∈ cs, P c) (hu : P u)
    {ms : List (Matching V)} (h : getAllMatchings eqV checker pat u = .ok ms) {m : Matching V}
    (hm : m ∈ ms) :
    Extends ⟨eqV, pat.constraints, checker⟩ (listIds (addNew [] t.names)) P
      (addNew [] t.names).length Matching.empty m (instNode m.get pat.tree) [u] := by
  have hs := getPattern_spec hp
  exact (extend_sound hP pat.tree 0 _ Matching.empty [u] 1 ms hs.numbered hs.listIds hs.len
    (init_inv _ _ _) (by simpa using hu) (fun _ => rfl) h m hm).2

theorem Assigns.get {t : Tree V} {cs : List (Tree V)} {pat : Pattern V}
    (hp : PatternOf t cs (addNew [] t.names) pat) {ctx : MatchCtx V} {L : Nat → Bool} {P : Tree V → Prop}
    {m : Matching V} (hm : MInv ctx L P (addNew [] t.names).length m)
    {σ : Str → Option (List (Tree V))} (hσ : Assigns t m σ) :
    ∀ n ∈ t.names, σ n = some (m.get ((addNew [] t.names).idxOf n)) := by
  intro n hn
  rw [hσ.iff hp n hn]
  exact hm.get (List.idxOf_lt_length_of_mem (hp.mem.2 hn))

/-- **C26.** Every matching reproduces the tree: substituted into the pattern it gives
a tree equal to the one matched against.  List variables stand for any number of
trees, other variables for exactly one. -/
theorem C26_sound {t : Tree V} {cs : List (Tree V)} {pat : Pattern V}
    (hp : getPattern t cs = .ok pat) (eqV : V → V → Bool) (checker : Tree V → Bool) (u : Tree V)
    {ms : List (Matching V)} (h : getAllMatchings eqV checker pat u = .ok ms) {m : Matching V}
    (hm : m ∈ ms) {σ : Str → Option (List (Tree V))} (hσ : Assigns t m σ) :
    (∃ w, Inst σ (fun i => i) t [w] ∧ Equal eqV w u) ∧
    ∀ n ∈ t.varNames, ¬ ListName n → ∃ s, σ n = some [s] := by
  have he := extends_of hp eqV checker u (fun _ => True) (fun _ _ _ _ _ _ => trivial) trivial h hm
  have hs := getPattern_spec hp
  have hg := Assigns.get hs he.inv hσ
  constructor
  · have hsame := he.same
    rw [hs.tree] at hsame
    cases hi : instNode m.get (t.withIds (addNew [] t.names).idxOf) with
    | nil => rw [hi] at hsame; cases hsame
    | cons w r =>
      rw [hi] at hsame
      cases hsame with
      | cons h1 h2 =>
        cases h2
        exact ⟨w, (inst_id_iff t hg _).2 hi.symm, h1⟩
  · intro n hn hl
    rw [varNames_eq] at hn
    rw [hg n hn]
    have hlt := List.idxOf_lt_length_of_mem (hs.mem.2 hn)
    have := he.inv.single ((addNew [] t.names).idxOf n) _ (by
      have := hs.listIds (n, (addNew [] t.names).idxOf n) (by
        rw [hs.tree, withIds_vars]; exact List.mem_map.2 ⟨n, hn, rfl⟩)
      rw [← this]
      rw [← isListName_iff] at hl
      simpa using hl) (he.inv.get hlt)
    obtain ⟨s, hs⟩ := List.length_eq_one_iff.1 this
    exact ⟨s, by rw [hs]⟩

/-- **C26** (partial).  All constraints hold under every matching.  This needs that
the variables of the constraints occur in the pattern and that the pattern has
variables at all; see the witnesses. -/
theorem C26_constraints_partial {t : Tree V} {cs : List (Tree V)} {pat : Pattern V}
    (hp : getPattern t cs = .ok pat) (hv : ∀ c ∈ cs, ∀ n ∈ c.varNames, n ∈ t.varNames)
    (hne : t.varNames ≠ []) (eqV : V → V → Bool) (checker : Tree V → Bool) (u : Tree V)
    {ms : List (Matching V)} (h : getAllMatchings eqV checker pat u = .ok ms) {m : Matching V}
    (hm : m ∈ ms) {σ : Str → Option (List (Tree V))} (hσ : Assigns t m σ) :
    ∀ c ∈ cs, ∃ c', Inst σ (fun i => i) c [c'] ∧ checker c' = true := by
  have he := extends_of hp eqV checker u (fun _ => True) (fun _ _ _ _ _ _ => trivial) trivial h hm
  have hs := getPattern_spec hp
  have hg := Assigns.get hs he.inv hσ
  simp only [varNames_eq] at hv hne
  intro c hc
  have hW : ∀ n ∈ c.names, n ∈ addNew [] t.names := fun n hn => hs.mem.2 (hv c hc n hn)
  have hk : triggerId (addNew [] t.names) (copyIds (addNew [] t.names) c) < (addNew [] t.names).length := by
    refine (triggerId_spec _ _ (by rw [copyIds_names]; exact hW) hs.nodup).2 ?_
    intro h0
    obtain ⟨n, hn⟩ := List.exists_mem_of_ne_nil _ hne
    have := hs.mem.2 hn
    rw [h0] at this
    cases this
  obtain ⟨w, h1, h2⟩ := he.inv.checked (hs.ctxOk hv eqV checker) _ hk _ ((hs.constr _ _).2 ⟨c, hc, rfl, rfl⟩)
  refine ⟨w, ?_, h2⟩
  rw [inst_id_iff c (fun n hn => hg n (hv c hc n hn)), ← h1, copyIds_eq _ c hW]

/-- **C28** (partial).  Matching is defined, in particular no child is accessed that
does not exist, if no list variable bound before a parameter list is followed in
it by another list variable.  The conditions on the constraints exclude that they
refer to variables the pattern does not have, or are nothing but a list variable.
The full statement has no such conditions; see the witness. -/
theorem C28_partial {t : Tree V} {cs : List (Tree V)} {pat : Pattern V}
    (hp : getPattern t cs = .ok pat) (ha : ListsApart [] t)
    (hv : ∀ c ∈ cs, ∀ n ∈ c.varNames, n ∈ t.varNames)
    (hr : ∀ c ∈ cs, ∀ n x i, c = .var n x i → ¬ ListName n)
    (eqV : V → V → Bool) (checker : Tree V → Bool) (u : Tree V) :
    ∃ ms, getAllMatchings eqV checker pat u = .ok ms := by
  have hs := getPattern_spec hp
  simp only [varNames_eq] at hv
  refine extend_ok (hs.ctxOk hv eqV checker) ?_ pat.tree 0 _ Matching.empty [u] 1 hs.numbered hs.listIds
    hs.len (init_inv _ _ _) (by simp) (fun _ => rfl) ?_
  · intro k c hc n x i hcx
    obtain ⟨d, hd, rfl, -⟩ := (hs.constr k c).1 hc
    cases d with
    | const => cases hcx
    | op => cases hcx
    | var n' x' i' =>
      have hn' : n' ∈ t.names := hv _ hd n' (by simp [Tree.names])
      have hlt := List.idxOf_lt_length_of_mem (hs.mem.2 hn')
      simp only [copyIds, idxOf?_eq, if_pos (hs.mem.2 hn'), Tree.var.injEq] at hcx
      obtain ⟨rfl, rfl, rfl⟩ := hcx
      have := hr _ hd _ _ _ rfl
      rw [← isListName_iff] at this
      simp only [listIds]
      rw [List.getD_eq_getElem?_getD, List.getElem?_eq_getElem hlt, List.getElem_idxOf]
      simpa using this
  · rw [hs.tree]
    exact apart_aux _ t [] [] (by simp) (by simp) (List.prefix_refl _) ha

/-- List variables that occur only once satisfy the condition of `C28_partial`. -/
theorem C28_linear (t : Tree V) (h : ∀ n, ListName n → t.varNames.count n ≤ 1) : ListsApart [] t := by
  simp only [varNames_eq] at h
  have key : ∀ (t : Tree V) (seen : List Str), (∀ n, ListName n → (seen ++ t.names).count n ≤ 1) →
      ListsApart seen t := by
    intro t
    refine Tree.rec
      (motive_1 := fun t => ∀ (seen : List Str), (∀ n, ListName n → (seen ++ t.names).count n ≤ 1) →
        ListsApart seen t)
      (motive_2 := fun l => ∀ (seen : List Str),
        (∀ n, ListName n → (seen ++ Tree.namesList l).count n ≤ 1) → ListsApartAll seen l)
      ?_ ?_ ?_ ?_ ?_ t
    · intro v i seen _; trivial
    · intro n x i seen _; trivial
    · intro o cs i ih seen h
      refine ⟨?_, ih seen h⟩
      intro a b n x j hab hn hseen
      exfalso
      have h1 := h n hn
      simp only [Tree.names, List.count_append] at h1
      have h2 : 0 < seen.count n := List.count_pos_iff.2 hseen
      have h3 : 0 < (Tree.namesList cs).count n :=
        List.count_pos_iff.2 (namesList_mem.2 ⟨.var n x j, by simp [hab], by simp [Tree.names]⟩)
      omega
    · intro seen _; trivial
    · intro c cs h1 h2 seen h
      simp only [Tree.namesList] at h
      refine ⟨h1 seen fun n hn => ?_, h2 (seen ++ c.varNames) fun n hn => ?_⟩
      · have := h n hn
        simp only [List.count_append] at this ⊢
        omega
      · have := h n hn
        rw [varNames_eq]
        simpa only [List.append_assoc] using this
  exact key t [] (by simpa using h)

/-- **C27** (partial).  If an assignment reproduces the tree and satisfies the
constraints, a matching is found, and it is the assignment up to equality of
trees.  Assumed are the conditions under which matching is defined (`C28_partial`),
that no NaN occurs (`eqV` is an equivalence), and that the checker does not
distinguish equal trees. -/
theorem C27_partial {t : Tree V} {cs : List (Tree V)} {pat : Pattern V}
    (hp : getPattern t cs = .ok pat) (ha : ListsApart [] t)
    (hv : ∀ c ∈ cs, ∀ n ∈ c.varNames, n ∈ t.varNames)
    (hr : ∀ c ∈ cs, ∀ n x i, c = .var n x i → ¬ ListName n)
    {eqV : V → V → Bool} (hrefl : ∀ v, eqV v v = true) (hsymm : ∀ v w, eqV v w = eqV w v)
    (htrans : ∀ u v w, eqV u v = true → eqV v w = true → eqV u w = true)
    {checker : Tree V → Bool}
    (hchk : ∀ a b, treeEquals eqV a b = true → checker a = true → checker b = true)
    {u w : Tree V} {σ : Str → Option (List (Tree V))} (hw : Inst σ (fun i => i) t [w])
    (hwu : treeEquals eqV w u = true) (hσ : ∀ n ∈ t.varNames, ¬ ListName n → ∃ s, σ n = some [s])
    (hcs : ∀ c ∈ cs, ∃ c', Inst σ (fun i => i) c [c'] ∧ checker c' = true) :
    ∃ ms, getAllMatchings eqV checker pat u = .ok ms ∧ ∃ m ∈ ms, ∀ τ, Assigns t m τ →
      ∀ n ∈ t.varNames, ∃ l l', σ n = some l ∧ τ n = some l' ∧
        List.Forall₂ (fun a b => treeEquals eqV a b = true) l' l := by
  obtain ⟨ms, hms⟩ := C28_partial hp ha hv hr eqV checker u
  refine ⟨ms, hms, ?_⟩
  have hs := getPattern_spec hp
  have hctx : CtxOk ⟨eqV, pat.constraints, checker⟩ := by
    refine hs.ctxOk ?_ eqV checker
    simpa only [varNames_eq] using hv
  simp only [varNames_eq] at hv hσ ⊢
  -- every variable of the pattern is assigned
  have hdef : ∀ (t : Tree V) l, Inst σ (fun i => i) t l → ∀ n ∈ t.names, ∃ l, σ n = some l := by
    intro t
    induction t using Tree.induct with
    | hc => intro l _ n hn; cases hn
    | hv n' x i =>
      intro l h n hn
      simp only [Tree.names, List.mem_singleton] at hn
      subst hn
      cases h with
      | var h => exact ⟨_, h⟩
    | ho o ds i ih =>
      intro l h n hn
      cases h with
      | op hl h =>
        obtain ⟨c, hc, hn⟩ := namesList_mem.1 hn
        obtain ⟨k, hk, rfl⟩ := List.mem_iff_getElem.1 hc
        exact ih _ hc _ (h k hk) n hn
  let W := addNew [] t.names
  let f : Nat → List (Tree V) := fun id => (σ (W.getD id [])).getD []
  have hf : ∀ n ∈ t.names, σ n = some (f (W.idxOf n)) := by
    intro n hn
    obtain ⟨l, hl⟩ := hdef t _ hw n hn
    have hlt := List.idxOf_lt_length_of_mem (hs.mem.2 hn)
    have : W.getD (W.idxOf n) [] = n := by
      rw [List.getD_eq_getElem?_getD, List.getElem?_eq_getElem hlt, List.getElem_idxOf]; rfl
    simp only [f, this, hl, Option.getD_some]
  have hinst : instNode f pat.tree = [w] := by
    rw [hs.tree]; exact ((inst_id_iff t hf _).1 hw).symm
  obtain ⟨m, hm, hinv, hag⟩ := extend_complete (f := f) hctx
    (fun a => by
      have := C21_refl eqV a (by
        induction a using Tree.induct with
        | hc => exact .const (hrefl _)
        | hv => exact .var
        | ho o cs i ih => exact .op ih)
      rwa [treeCopy_eq] at this)
    (fun a b c h1 h2 => C21_trans eqV htrans a b c h1 h2)
    (fun a b h => by unfold TEq at h ⊢; rw [C21_symm eqV hsymm]; exact h)
    hchk
    (by
      intro k c hc
      obtain ⟨d, hd, rfl, -⟩ := (hs.constr k c).1 hc
      obtain ⟨c', h1, h2⟩ := hcs d hd
      refine ⟨c', ?_, h2⟩
      rw [copyIds_eq _ d fun n hn => hs.mem.2 (hv d hd n hn)]
      exact ((inst_id_iff d (fun n hn => hf n (hv d hd n hn)) _).1 h1).symm)
    pat.tree 0 _ Matching.empty [u] 1 ms hs.numbered hs.listIds hs.len (init_inv _ _ _)
    (fun id l h => by cases h)
    (by
      rw [hs.tree, withIds_vars]
      intro x hx hl
      obtain ⟨n, hn, rfl⟩ := List.mem_map.1 hx
      obtain ⟨s, hs'⟩ := hσ n hn (by rw [← isListName_iff]; simp [hl])
      have := hf n hn
      rw [hs'] at this
      simp only [Option.some.injEq] at this
      simp only
      rw [← this]; rfl)
    (by simp) (by rw [hinst]; exact .cons hwu .nil) hms
  refine ⟨m, hm, fun τ hτ n hn => ?_⟩
  have hg := Assigns.get hs hinv hτ n hn
  have hlt := List.idxOf_lt_length_of_mem (hs.mem.2 hn)
  exact ⟨_, _, hf n hn, hg, hag _ _ (hinv.get hlt)⟩

/-! ## Examples and witnesses -/

/-- Operators for the examples: a sum and a product of any number of operands. -/
def osum : Op := { Op.getFunction "sum".toList .dyn with id := 1 }
def oprod : Op := { Op.getFunction "prod".toList .dyn with id := 2 }

def v (n : String) : Tree Nat := .var n.toList 0 0
def k (n : Nat) : Tree Nat := .const n 0

/-- The number of matchings found, `none` if not defined. -/
def matchCount (t : Tree Nat) (cs : List (Tree Nat)) (checker : Tree Nat → Bool) (u : Tree Nat) :
    Option Nat :=
  match getPattern t cs with
  | .ok pat =>
    match getAllMatchings (· == ·) checker pat u with
    | .ok ms => some ms.length
    | _ => none
  | .error _ => none

/-- `sum([xs], x, [ys])` matches `sum(1, 2, 3)` in three ways; with the constraint
`x` is 2 in one. -/
example : matchCount (.op osum [v "[xs]", v "x", v "[ys]"] 0) [] (fun _ => true)
    (.op osum [k 1, k 2, k 3] 0) = some 3 := by decide +kernel
example : matchCount (.op osum [v "[xs]", v "x", v "[ys]"] 0) [v "x"] (fun t => t == k 2)
    (.op osum [k 1, k 2, k 3] 0) = some 1 := by decide +kernel
/-- A repeated variable must stand for equal trees. -/
example : matchCount (.op osum [v "[xs]", v "x", v "[ys]", v "x", v "[zs]"] 0) [] (fun _ => true)
    (.op osum [k 1, k 2, k 1, k 2] 0) = some 2 := by decide +kernel
/-- The condition of `C28_partial` holds for it, for its list variables are different. -/
example : ListsApart [] (.op osum [v "[xs]", v "x", v "[ys]", v "x", v "[zs]"] 0) := by
  refine ⟨?_, ?_⟩
  · intro _ _ _ _ _ _ _ h
    cases h
  · simp [ListsApartAll, ListsApart, v]

/-- **C28** fails for `sum(prod([xs]), prod([xs], [ys]))`: matched against
`sum(prod(1, 2, 3), prod(1, 2))` the list variable `[xs]`, bound to three trees, makes
the program look for them among two, and `[ys]` gets the length 2^64 - 1. -/
theorem C28_witness : (match getPattern (V := Nat)
      (.op osum [.op oprod [v "[xs]"] 0, .op oprod [v "[xs]", v "[ys]"] 0] 0) [] with
    | .ok pat => match getAllMatchings (· == ·) (fun _ => true) pat
        (.op osum [.op oprod [k 1, k 2, k 3] 0, .op oprod [k 1, k 2] 0] 0) with
      | .ub => true
      | _ => false
    | .error _ => false) = true := by decide +kernel

/-- **C26**: a pattern without variables matches although its constraint does not hold. -/
theorem C26_ground_witness : matchCount (k 1) [k 0] (fun _ => false) (k 1) = some 1 := by
  decide +kernel

/-- **C26**: a variable of a constraint that does not occur in the pattern is taken for
the first variable: `y` is 1 holds for `sum(x)` and `sum(1)`. -/
theorem C26_foreign_witness : matchCount (.op osum [v "x"] 0) [v "y"] (fun t => t == k 1)
    (.op osum [k 1] 0) = some 1 := by decide +kernel

/-- **C27** fails if constants need not equal themselves: with 0 in the role of NaN,
`sum(x, x)` does not match `sum(0, 0)`. -/
theorem C27_nan_witness : (match getPattern (V := Nat) (.op osum [v "x", v "x"] 0) [] with
    | .ok pat => match getAllMatchings (fun a b => a == b && a != 0) (fun _ => true) pat
        (.op osum [k 0, k 0] 0) with
      | .ok ms => ms.length == 0
      | _ => false
    | .error _ => false) = true := by decide +kernel

end Verif.MatchProps
