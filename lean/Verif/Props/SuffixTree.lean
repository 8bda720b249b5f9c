import Verif.Lemmas.SuffixTree
import Verif.Props.Matching

/-!
# C99: the suffix tree of the matcher

`match_parameter_lists` works on two vectors: suffix nodes that refer to each other by
index, and matchings that suffix nodes refer to by index, computed once and looked up
afterwards.  With nodes of any number of children that fits into memory it ends, reads
no element that is not there or not computed yet, and finds what the plain enumeration
of `Model/Matching.lean` finds, in the same order.
-/

namespace Verif.SuffixProps
open Verif TreeProps MatchProps
variable {V : Type}

theorem narrow_withIds (f : Str → Nat) (t : Tree V) : Narrow t → Narrow (t.withIds f) := by
  refine Tree.rec (motive_1 := fun t => Narrow t → Narrow (t.withIds f))
    (motive_2 := fun l => NarrowAll l → NarrowAll (Tree.withIdsList f l) ∧
      (Tree.withIdsList f l).length = l.length) ?_ ?_ ?_ ?_ ?_ t
  · intro v i _; exact True.intro
  · intro n x i _; exact True.intro
  · intro o cs i ih h
    exact ⟨(ih h.2).2 ▸ h.1, (ih h.2).1⟩
  · intro _; exact ⟨True.intro, rfl⟩
  · intro c cs h1 h2 h
    exact ⟨⟨h1 h.1, (h2 h.2).1⟩, by simp only [Tree.withIdsList, List.length_cons, (h2 h.2).2]⟩

/-- **C99**: with vectors and with plain enumeration the same matchings are found in the
same order, and a read outside of an array happens in the same cases. -/
theorem C99_same (eqV : V → V → Bool) (checker : Tree V → Bool) (pat : Pattern V) (t : Tree V)
    (hp : Narrow pat.tree) (ht : Narrow t) :
    ∃ F, ∀ fuel, F ≤ fuel →
      Suffix.allMatchings fuel eqV checker pat t = Out.of (getAllMatchings eqV checker pat t) :=
  Suffix.extend_eq (ctx := ⟨eqV, pat.constraints, checker⟩) pat.tree hp Matching.empty [t] 1
    (fun _ _ h => by cases h) (by simp) (by simpa using ht)

/-- **C99**: what the program finds with its vectors are instances of the pattern whose
constraints hold, and every such instance is found; the conditions are those of C26
to C28. -/
theorem C99_finds {t : Tree V} {cs : List (Tree V)} {pat : Pattern V}
    (hp : getPattern t cs = .ok pat) (ha : ListsApart [] t)
    (hv : ∀ c ∈ cs, ∀ n ∈ c.varNames, n ∈ t.varNames)
    (hr : ∀ c ∈ cs, ∀ n x i, c = .var n x i → ¬ ListName n) (hne : t.varNames ≠ [])
    {eqV : V → V → Bool} (hrefl : ∀ v, eqV v v = true) (hsymm : ∀ v w, eqV v w = eqV w v)
    (htrans : ∀ u v w, eqV u v = true → eqV v w = true → eqV u w = true)
    {checker : Tree V → Bool}
    (hchk : ∀ a b, treeEquals eqV a b = true → checker a = true → checker b = true)
    (u : Tree V) (hnt : Narrow t) (hnu : Narrow u) :
    ∃ F, ∀ fuel, F ≤ fuel → ∃ ms, Suffix.allMatchings fuel eqV checker pat u = .ok ms ∧
      (∀ m ∈ ms, ∀ σ, Assigns t m σ →
        (∃ w, Inst σ (fun i => i) t [w] ∧ Equal eqV w u) ∧
        (∀ n ∈ t.varNames, ¬ ListName n → ∃ s, σ n = some [s]) ∧
        ∀ c ∈ cs, ∃ c', Inst σ (fun i => i) c [c'] ∧ checker c' = true) ∧
      ∀ w σ, Inst σ (fun i => i) t [w] → treeEquals eqV w u = true →
        (∀ n ∈ t.varNames, ¬ ListName n → ∃ s, σ n = some [s]) →
        (∀ c ∈ cs, ∃ c', Inst σ (fun i => i) c [c'] ∧ checker c' = true) →
        ∃ m ∈ ms, ∀ τ, Assigns t m τ → ∀ n ∈ t.varNames, ∃ l l', σ n = some l ∧ τ n = some l' ∧
          List.Forall₂ (fun a b => treeEquals eqV a b = true) l' l := by
  have hnp : Narrow pat.tree := by
    rw [(getPattern_spec hp).tree]
    exact narrow_withIds _ t hnt
  obtain ⟨F, hF⟩ := C99_same eqV checker pat u hnp hnu
  obtain ⟨ms, hms⟩ := C28_partial hp ha hv hr eqV checker u
  refine ⟨F, fun fuel hf => ⟨ms, by rw [hF fuel hf, hms]; rfl, ?_, ?_⟩⟩
  · intro m hm σ hσ
    have h1 := C26_sound hp eqV checker u hms hm hσ
    exact ⟨h1.1, h1.2, C26_constraints_partial hp hv hne eqV checker u hms hm hσ⟩
  · intro w σ hw hwu hσ hcs
    obtain ⟨ms', hms', h⟩ := C27_partial hp ha hv hr hrefl hsymm htrans hchk hw hwu hσ hcs
    rw [hms] at hms'
    cases hms'
    exact h

/-! ## Examples -/

/-- What the first `k` variables are bound to in the matchings found, `none` if the fuel
does not suffice or a read is outside of an array. -/
def found (fuel k : Nat) (t : Tree Nat) (cs : List (Tree Nat)) (checker : Tree Nat → Bool)
    (u : Tree Nat) : Option (List (List (Option (List (Tree Nat))))) :=
  match getPattern t cs with
  | .ok pat =>
    match Suffix.allMatchings fuel (· == ·) checker pat u with
    | .ok ms => some (ms.map fun m => (List.range k).map m)
    | _ => none
  | .error _ => none

/-- `sum([xs], x, [ys])` matches `sum(1, 2, 3)` in three ways, the shortest list first. -/
example : found 20 3 (.op osum [v "[xs]", v "x", v "[ys]"] 0) [] (fun _ => true)
    (.op osum [k 1, k 2, k 3] 0) =
    some [[some [], some [k 1], some [k 2, k 3]], [some [k 1], some [k 2], some [k 3]],
      [some [k 1, k 2], some [k 3], some []]] := by decide +kernel

/-- The fuel is used up by 11 nodes and the test that there are no more. -/
example : found 12 3 (.op osum [v "[xs]", v "x", v "[ys]"] 0) [] (fun _ => true)
    (.op osum [k 1, k 2, k 3] 0) ≠ none ∧
    found 11 3 (.op osum [v "[xs]", v "x", v "[ys]"] 0) [] (fun _ => true)
    (.op osum [k 1, k 2, k 3] 0) = none := by decide +kernel

/-- Matchings of inner nodes are used more than once: lists before and after a nested
sum that itself matches in two ways. -/
example : found 40 4 (.op osum [.op osum [v "[as]", v "a", v "[bs]"] 0, v "[xs]", v "[ys]"] 0) []
    (fun _ => true) (.op osum [.op osum [k 1, k 2] 0, k 3] 0) =
    some [[some [], some [k 1], some [k 2], some []], [some [k 1], some [k 2], some [], some []],
      [some [], some [k 1], some [k 2], some [k 3]],
      [some [k 1], some [k 2], some [], some [k 3]]] := by decide +kernel

/-- The read outside of the array of C28 happens with vectors as well. -/
example : (match getPattern (V := Nat)
      (.op osum [.op oprod [v "[xs]"] 0, .op oprod [v "[xs]", v "[ys]"] 0] 0) [] with
    | .ok pat => match Suffix.allMatchings 20 (· == ·) (fun _ => true) pat
        (.op osum [.op oprod [k 1, k 2, k 3] 0, .op oprod [k 1, k 2] 0] 0) with
      | .ub => true
      | _ => false
    | .error _ => false) = true := by decide +kernel

/-- The trees of the examples are narrow. -/
example : Narrow (V := Nat) (.op osum [.op osum [v "[as]", v "a", v "[bs]"] 0, v "[xs]", v "[ys]"] 0) := by
  simp [Narrow, NarrowAll, v]

end Verif.SuffixProps
