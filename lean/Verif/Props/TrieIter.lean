import Verif.Props.Trie
import Verif.Lemmas.TrieIter

/-!
# C81: a loop over a trie meets each string once, in alphabetical order

Specification: the strings with their payload in an association list `m` (as in C01), put in the order of a
dictionary.  The limit of the iterator, strings of 28 characters, is part of the statement: with longer strings the
program stops with a reported defect, never with an access outside of the arrays.
-/

namespace Verif.TrieProps
open Trie TIter
variable {α : Type}

/-- Dictionary order, stated without the model: `s` is a proper prefix of `t`, or at the first place where the two
differ, `s` has the smaller character. -/
def Precedes (s t : Str) : Prop :=
  (∃ c u, t = s ++ c :: u) ∨ ∃ p c r d u, s = p ++ c :: r ∧ t = p ++ d :: u ∧ c < d

theorem precedes_iff (s t : Str) : Precedes s t ↔ before s t = true := by
  rw [before_iff]
  unfold Precedes Later
  have hc : ∀ c d : Char, c < d ↔ c.toNat < d.toNat := fun c d => Iff.rfl
  constructor
  · rintro (⟨c, u, h⟩ | h)
    · exact .inl ⟨c :: u, by simp, h⟩
    · exact .inr h
  · rintro (⟨u, hu, h⟩ | h)
    · cases u with
      | nil => exact absurd rfl hu
      | cons c u => exact .inl ⟨c, u, h⟩
    · exact .inr h

/-- What the loop hands to its body. -/
def shownAt (p : Str × α) : Option Str × Option α := (some p.1, some p.2)

theorem filter_split {m : SpecMap α} (hnd : (m.map (·.1)).Nodup) {u : Str} {a : α} (hu : (u, a) ∈ m)
    (P : Str → Bool) (hP : P u = true) (hmin : ∀ v ∈ m.map (·.1), P v = true → v = u ∨ before u v = true)
    (htr : ∀ v, before u v = true → P v = true) :
    (m.filter (fun p => P p.1)).Perm ((u, a) :: m.filter (fun p => before u p.1)) := by
  induction m with
  | nil => cases hu
  | cons p m ih =>
    simp only [List.map_cons, List.nodup_cons] at hnd
    rcases List.mem_cons.mp hu with h | h
    · subst h
      have hne : ∀ q ∈ m, q.1 ≠ u := fun q hq hc => hnd.1 (hc ▸ List.mem_map.mpr ⟨q, hq, rfl⟩)
      simp only [List.filter_cons, hP, if_true, before_irrefl]
      refine List.Perm.cons _ ?_
      have : m.filter (fun p => P p.1) = m.filter (fun p => before u p.1) := by
        apply List.filter_congr
        intro q hq
        rw [Bool.eq_iff_iff]
        refine ⟨fun hp => ?_, htr _⟩
        rcases hmin q.1 (List.mem_cons_of_mem _ (List.mem_map.mpr ⟨q, hq, rfl⟩)) hp with h | h
        · exact absurd h (hne q hq)
        · exact h
      rw [this]; simp
    · have hpu : p.1 ≠ u := fun hc => hnd.1 (hc ▸ List.mem_map.mpr ⟨_, h, rfl⟩)
      have ih := ih hnd.2 h (fun v hv => hmin v (List.mem_cons_of_mem _ hv))
      have e : P p.1 = before u p.1 := by
        rw [Bool.eq_iff_iff]
        refine ⟨fun hp => ?_, htr _⟩
        rcases hmin p.1 (List.mem_cons_self) hp with h | h
        · exact absurd h hpu
        · exact h
      simp only [List.filter_cons, e]
      by_cases hb : before u p.1 = true
      · simp only [hb, if_true]
        exact (List.Perm.cons p ih).trans (List.Perm.swap _ _ _)
      · simp only [hb]
        exact ih

/-- One call, in terms of the specification. -/
theorem next_spec {t : Trie α} {m : SpecMap α} (h : Rel t m) {P : Str → Bool} {e : TIter α} {r}
    (hs : Step t.root (fun u => mem t.root u = true ∧ P u = true) e r) (htr : ∀ u v, P u = true → before u v = true → P v = true) :
    (r = .defect ∧ ∃ u ∈ m.map (·.1), 29 ≤ u.length) ∨
    (r = .ok (e, none) ∧ m.filter (fun p => P p.1) = []) ∨
    ∃ u a nd, r = .ok (canon t.root u, some nd) ∧ (u, a) ∈ m ∧ nd.data = some a ∧ u.length ≤ 28 ∧ P u = true ∧
      walk t.root u = some nd ∧
      (m.filter (fun p => P p.1)).Perm ((u, a) :: m.filter (fun p => before u p.1)) := by
  cases hs with
  | tooLong u hu hl => exact .inl ⟨rfl, u, (h.mem u).mp hu.1, hl⟩
  | nothing hno =>
    refine .inr (.inl ⟨rfl, ?_⟩)
    rw [List.filter_eq_nil_iff]
    intro p hp hP
    exact hno p.1 ⟨(h.mem p.1).mpr (List.mem_map.mpr ⟨p, hp, rfl⟩), hP⟩
  | first u nd hu hw hl hmin =>
    obtain ⟨⟨u', a⟩, hp, rfl⟩ := List.mem_map.mp ((h.mem u).mp hu.1)
    refine .inr (.inr ⟨u', a, nd, rfl, hp, ?_, hl, hu.2, hw, ?_⟩)
    · have := h.val u' a hp
      unfold val at this
      rw [hw] at this
      exact this
    · exact filter_split h.nodup hp P hu.2 (fun v hv hP => hmin v ⟨(h.mem v).mpr hv, hP⟩) (fun v => htr u' v hu.2)

/-- The loop from a state in which the strings that satisfy `P` are left. -/
theorem collect_spec {t : Trie α} {m : SpecMap α} (h : Rel t m) (fuel : Nat) (it : TIter α) (P : Str → Bool)
    (hs : Step t.root (fun u => mem t.root u = true ∧ P u = true) start (getNext t it))
    (htr : ∀ u v, P u = true → before u v = true → P v = true)
    (hf : (m.filter (fun p => P p.1)).length < fuel) :
    (collect t fuel it = .defect ∧ ∃ u ∈ m.map (·.1), 29 ≤ u.length) ∨
    ∃ l : List (Str × α), collect t fuel it = .ok (some (l.map shownAt, start)) ∧ l.Perm (m.filter (fun p => P p.1)) ∧
      l.Pairwise (fun p q => before p.1 q.1 = true) ∧ ∀ p ∈ l, p.1.length ≤ 28 := by
  induction fuel generalizing it P with
  | zero => omega
  | succ fuel ih =>
    unfold collect
    rcases next_spec h hs htr with ⟨hr, hlong⟩ | ⟨hr, hnil⟩ | ⟨u, a, nd, hr, hm, hd, hl, hP, hw, hperm⟩
    · left; rw [hr]; exact ⟨rfl, hlong⟩
    · right
      rw [hr, hnil]
      exact ⟨[], rfl, List.Perm.refl _, List.Pairwise.nil, by simp⟩
    · rw [hr]
      simp only [Res.bind_ok]
      rw [current_canon hl ((h.mem u).mpr (List.mem_map.mpr ⟨_, hm, rfl⟩))]
      simp only [Res.bind_ok]
      have hlen := hperm.length_eq
      simp only [List.length_cons] at hlen
      rcases ih (canon t.root u) (fun v => before u v) (getNext_step h.wf hl hw) (fun v w => before_trans) (by omega)
        with ⟨hc, hlong⟩ | ⟨l, hc, hp, hso, hsh⟩
      · left; rw [hc]; exact ⟨rfl, hlong⟩
      · right
        rw [hc]
        simp only [Res.bind_ok]
        refine ⟨(u, a) :: l, by simp [shownAt, hd], (List.Perm.cons _ hp).trans hperm.symm, ?_, ?_⟩
        · refine List.Pairwise.cons ?_ hso
          intro q hq
          exact (List.mem_filter.mp (hp.subset hq)).2
        · intro q hq
          rcases List.mem_cons.mp hq with rfl | hq
          · exact hl
          · exact hsh q hq

/-- **C81**: after any history of insertions and removals, a loop over the trie hands out each stored string exactly
once, with its payload, in dictionary order, and leaves the iterator as a new one, if all strings have at most 28
characters; if one is longer, the program stops with a report.  `fuel` is any number larger than the number of strings. -/
theorem C81_iteration (os : List (TrieOp α)) (hos : ∀ o ∈ os, OpLegal o) (fuel : Nat)
    (hf : (os.foldl specStep []).length < fuel) :
    ∃ t, run Trie.create os = .ok t ∧
      ((∃ p ∈ os.foldl specStep [], 28 < p.1.length) → collect t fuel start = .defect) ∧
      ((∀ p ∈ os.foldl specStep [], p.1.length ≤ 28) →
        ∃ l : List (Str × α), collect t fuel start = .ok (some (l.map (fun p => (some p.1, some p.2)), start)) ∧
          l.Perm (os.foldl specStep []) ∧ l.Pairwise (fun p q => Precedes p.1 q.1)) := by
  obtain ⟨t, h1, h2⟩ := run_rel (rel_create (α := α)) os hos
  refine ⟨t, h1, ?_⟩
  have e : (os.foldl specStep []).filter (fun _ => true) = os.foldl specStep [] := by simp
  have hs := getNext_start h2.wf
  have hs' : Step t.root (fun u => mem t.root u = true ∧ (fun _ : Str => true) u = true) start (getNext t start) := by
    simpa using hs
  have := collect_spec h2 fuel start (fun _ => true) hs' (fun _ _ _ _ => rfl) (by rw [e]; exact hf)
  rw [e] at this
  constructor
  · rintro ⟨p, hp, hl⟩
    rcases this with ⟨hc, _⟩ | ⟨l, _, hperm, _, hsh⟩
    · exact hc
    · have := hsh p (hperm.symm.subset hp)
      omega
  · intro hall
    rcases this with ⟨_, u, hu, hl⟩ | ⟨l, hc, hperm, hso, _⟩
    · obtain ⟨p, hp, rfl⟩ := List.mem_map.mp hu
      have := hall p hp
      omega
    · exact ⟨l, hc, hperm, hso.imp (fun h => (precedes_iff _ _).mpr h)⟩

/-- Before the first call and after the loop there is no current string. -/
theorem C81_no_current : currentString (start : TIter α) = .ok none := rfl

/-- **C81**, one call in the middle of a loop: from the string `s` the iterator goes to the least stored string
after `s`. -/
theorem C81_next (os : List (TrieOp α)) (hos : ∀ o ∈ os, OpLegal o) {t : Trie α} (ht : run Trie.create os = .ok t)
    (hshort : ∀ p ∈ os.foldl specStep [], p.1.length ≤ 28) (s : Str) (hs : s ∈ (os.foldl specStep []).map (·.1)) :
    (getNext t (canon t.root s) = .ok (start, none) ∧ ∀ p ∈ os.foldl specStep [], ¬ Precedes s p.1) ∨
    ∃ u a nd, getNext t (canon t.root s) = .ok (canon t.root u, some nd) ∧ (u, a) ∈ os.foldl specStep [] ∧
      nd.data = some a ∧ (canon t.root u).currentString = .ok (some u) ∧ Precedes s u ∧
      ∀ p ∈ os.foldl specStep [], Precedes s p.1 → p.1 = u ∨ Precedes u p.1 := by
  obtain ⟨t', h1, h2⟩ := run_rel (rel_create (α := α)) os hos
  rw [ht] at h1
  cases h1
  have hm := (h2.mem s).mpr hs
  obtain ⟨p, hp, rfl⟩ := List.mem_map.mp hs
  obtain ⟨nd, hw⟩ : ∃ nd, walk t.root p.1 = some nd := by
    unfold mem at hm
    cases hw : walk t.root p.1 with
    | none => simp [hw] at hm
    | some nd => exact ⟨nd, rfl⟩
  have hst := getNext_step h2.wf (hshort p hp) hw
  rcases next_spec h2 hst (fun v w => before_trans) with ⟨_, u, hu, hl⟩ | ⟨hr, hnil⟩ | ⟨u, a, nd, hr, hu, hd, hl, hP, _, hperm⟩
  · obtain ⟨q, hq, rfl⟩ := List.mem_map.mp hu
    have := hshort q hq
    omega
  · left
    refine ⟨hr, ?_⟩
    intro q hq hc
    rw [precedes_iff] at hc
    have := List.filter_eq_nil_iff.mp hnil q hq
    exact this hc
  · right
    refine ⟨u, a, nd, hr, hu, hd, current_canon hl ((h2.mem u).mpr (List.mem_map.mpr ⟨_, hu, rfl⟩)),
      (precedes_iff _ _).mpr hP, ?_⟩
    intro q hq hc
    rw [precedes_iff] at hc
    have : q ∈ (u, a) :: (os.foldl specStep []).filter (fun p => before u p.1) :=
      hperm.subset (List.mem_filter.mpr ⟨hq, hc⟩)
    rcases List.mem_cons.mp this with h | h
    · left; rw [h]
    · right; rw [precedes_iff]; exact (List.mem_filter.mp h).2

/-- The state of C81_next is the one the loop is in: the first call leads to it. -/
theorem C81_first (os : List (TrieOp α)) (hos : ∀ o ∈ os, OpLegal o) {t : Trie α} (ht : run Trie.create os = .ok t)
    (hshort : ∀ p ∈ os.foldl specStep [], p.1.length ≤ 28) :
    (getNext t start = .ok (start, none) ∧ os.foldl specStep [] = []) ∨
    ∃ u a nd, getNext t start = .ok (canon t.root u, some nd) ∧ (u, a) ∈ os.foldl specStep [] ∧
      nd.data = some a ∧ ∀ p ∈ os.foldl specStep [], p.1 = u ∨ Precedes u p.1 := by
  obtain ⟨t', h1, h2⟩ := run_rel (rel_create (α := α)) os hos
  rw [ht] at h1
  cases h1
  have hs' : Step t.root (fun u => mem t.root u = true ∧ (fun _ : Str => true) u = true) start (getNext t start) := by
    simpa using getNext_start h2.wf
  rcases next_spec h2 hs' (fun _ _ _ _ => rfl) with ⟨_, u, hu, hl⟩ | ⟨hr, hnil⟩ | ⟨u, a, nd, hr, hu, hd, hl, hP, _, hperm⟩
  · obtain ⟨q, hq, rfl⟩ := List.mem_map.mp hu
    have := hshort q hq
    omega
  · exact .inl ⟨hr, by simpa using hnil⟩
  · right
    refine ⟨u, a, nd, hr, hu, hd, ?_⟩
    intro q hq
    have : q ∈ (u, a) :: (os.foldl specStep []).filter (fun p => before u p.1) :=
      hperm.subset (by simpa using hq)
    rcases List.mem_cons.mp this with h | h
    · left; rw [h]
    · right; rw [precedes_iff]; exact (List.mem_filter.mp h).2

/-! ## The hypotheses can be met -/

/-- A history with the empty string, prefixes, a removal and a duplicate. -/
def walked : List (TrieOp Nat) :=
  [.add "ab".toList 1, .add "b".toList 2, .add [] 3, .add "abc".toList 4, .add "a".toList 5, .remove "ab".toList,
   .add "b".toList 9, .add "aab".toList 6]

example : (∀ o ∈ walked, OpLegal o) ∧ (∀ p ∈ walked.foldl specStep [], p.1.length ≤ 28) := by
  constructor
  · intro o ho
    simp only [walked, List.mem_cons, List.not_mem_nil, or_false] at ho
    rcases ho with rfl | rfl | rfl | rfl | rfl | rfl | rfl | rfl <;> (unfold OpLegal; first | trivial | decide +kernel)
  · decide +kernel

/-- The strings are met in this order. -/
example : (match run Trie.create walked with
    | .ok t => (match collect t 9 start with
      | .ok (some (l, _)) => l
      | _ => [])
    | _ => []) =
    [(some [], some 3), (some "a".toList, some 5), (some "aab".toList, some 6), (some "abc".toList, some 4),
     (some "b".toList, some 2)] := by decide +kernel

/-- A string of 29 characters stops the loop. -/
example : ∃ os : List (TrieOp Nat), (∀ o ∈ os, OpLegal o) ∧ (∃ p ∈ os.foldl specStep [], 28 < p.1.length) :=
  ⟨[.add (List.replicate 29 'x') 1], by
    intro o ho
    rcases List.mem_singleton.mp ho with rfl
    unfold OpLegal; decide +kernel, (List.replicate 29 'x', 1), by decide +kernel, by decide⟩

end Verif.TrieProps
