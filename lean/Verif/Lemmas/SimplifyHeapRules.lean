import Verif.Lemmas.SimplifyHeap
import Verif.Lemmas.Shorthand
import Verif.Lemmas.Bound
import Verif.Spec.MemoryRules

/-!
# Lemmas on rules that are applied to a tree in memory
-/

namespace Verif
open OwnershipSpec MemorySpec
variable {V ε : Type}

/-! ## A tree among other things -/

/-- The tree `t` in the variable `y`, in a memory that otherwise is `g` with the variables `vs`, except
for `x`, which can have any value. -/
structure Live (g : Nat → Option (Cell V)) (vs : Nat → Option Nat) (y x : Nat) (t : Tree V) (m : Mem V)
    (S : List Nat) : Prop where
  at_ : At m (.var y) t S
  new : ∀ a ∈ S, g a = none
  old : ∀ a, a ∉ S → m.get a = g a
  vars : ∀ z, z ≠ y → z ≠ x → m.vars z = vs z

theorem Live.step {g : Nat → Option (Cell V)} {vs : Nat → Option Nat} {y x : Nat} {t u : Tree V}
    {m m' : Mem V} {S T : List Nat} {v : Option Nat} (h : Live g vs y x t m S) (hyx : y ≠ x)
    (e : Trade (m.setVar x v) (.var y) S u T m') : Live g vs y x u m' T := by
  have hat : At (m.setVar x v) (.var y) t S := by
    obtain ⟨p, h1, h2⟩ := h.at_
    exact ⟨p, by simpa [Mem.deref, Mem.setVar, hyx] using h1, h2⟩
  refine ⟨e.at hat, ?_, ?_, ?_⟩
  · intro a ha
    obtain ⟨q, e1, _⟩ := e
    rcases e1.fresh a ha with h' | h'
    · exact h.new a h'
    · by_cases hS : a ∈ S
      · exact h.new a hS
      · rw [← h.old a hS]; exact h'
  · intro a ha
    obtain ⟨q, e1, _⟩ := e
    by_cases hS : a ∈ S
    · rw [e1.freed a hS ha, h.new a hS]
    · rw [e1.frame a hS ha, ← h.old a hS]; rfl
  · intro z hy hx
    obtain ⟨q, _, e2⟩ := e
    rw [e2]
    simp [putVar, hy, Mem.setVar, hx, h.vars z hy hx]

theorem Mem.setVar_same (m : Mem V) (x : Nat) : m.setVar x (m.vars x) = m := by
  obtain ⟨c, v⟩ := m
  simp only [Mem.setVar, Mem.mk.injEq, true_and]
  funext z
  by_cases h : z = x
  · rw [if_pos h, h]
  · rw [if_neg h]

theorem Live.trade {g : Nat → Option (Cell V)} {vs : Nat → Option Nat} {y x : Nat} {t u : Tree V}
    {m m' : Mem V} {S T : List Nat} (h : Live g vs y x t m S) (hyx : y ≠ x)
    (e : Trade m (.var y) S u T m') : Live g vs y x u m' T :=
  h.step (v := m.vars x) hyx (by rw [Mem.setVar_same]; exact e)

theorem Live.stored {g : Nat → Option (Cell V)} {vs : Nat → Option Nat} {y x : Nat} {t u : Tree V}
    {m : Mem V} {S R : List Nat} {a : Nat} (h : Live g vs y x t m S) (hu : OwnershipSpec.Holds g u a R) :
    OwnershipSpec.Holds m.get u a R :=
  hu.congr fun b hb => h.old b fun hS => hu.live b hb (h.new b hS)

/-- No promise about any memory. -/
theorem Safe.nothing (m : Mem V) (slot : Slot) (S : List Nat) :
    Safe m (fun _ => False) (fun _ => False) m slot S :=
  ⟨fun _ h => h.elim, fun _ h => h.elim, fun _ h => h.elim, fun _ _ h => h, fun _ _ _ h => h, fun _ _ h => h⟩

theorem inside_mapped {m : Mem V} {slot : Slot} {s : Tree V} {S : List Nat} {x : Nat} (h : At m slot s S)
    (hx : slot ≠ .var x) : ∀ {ss : List Slot} {us : List (Tree V)}, Inside m slot s ss us →
    Mapped m (fun a => m.get a ≠ none) (fun y => y ≠ x) ss us
  | [], us, hi => hi
  | sl :: ss, _, ⟨u, us', q, e, hd, hp, hi⟩ => by
    obtain ⟨X, g1, g2, g3, _⟩ := h.path hd hp
    have ho := fun a k hs => g1.owner (a := a) (k := k) hs
    obtain ⟨p, k1, k2, _⟩ := g1
    refine ⟨u, us', p, X, e, k1, k2, fun a ha => k2.live a ha, fun a k hs => (ho a k hs).1, ?_,
      inside_mapped h hx hi⟩
    rintro z rfl rfl
    rcases g3 with g3 | ⟨a, k, g3, _⟩
    · exact hx g3.symm
    · cases g3

theorem mem_le_sum {l : List Nat} {n : Nat} (h : n ∈ l) : n ≤ l.sum := by
  induction l with
  | nil => simp at h
  | cons a l ih =>
    rcases List.mem_cons.mp h with rfl | h
    · simp
    · have := ih h; simp; omega

theorem matching_bound (mt : Matching V) : ∃ B, ∀ id < maxMappedVars, ∀ u ∈ (mt id).getD [], calls u ≤ B := by
  refine ⟨((List.range maxMappedVars).map fun id => callsAll ((mt id).getD [])).sum, fun id hid u hu => ?_⟩
  have h1 := callsAll_mem hu
  have h2 : callsAll ((mt id).getD []) ≤ ((List.range maxMappedVars).map fun id => callsAll ((mt id).getD [])).sum :=
    mem_le_sum (List.mem_map.mpr ⟨id, List.mem_range.mpr hid, rfl⟩)
  omega

/-! ## rewrite_rule.c -/

theorem applyRule_cases {eqV : V → V → Bool} {checker : Tree V → Bool} {rule : RewriteRule V} {t : Tree V}
    {r : Option (Tree V)} (h : applyRule eqV checker rule t = .ok r) :
    (findMatching eqV checker rule.pattern t [] = .ok none ∧ r = none) ∨
    ∃ path mt s u, findMatching eqV checker rule.pattern t [] = .ok (some (path, mt)) ∧
      t.deref path = some s ∧ transformByMatching mt (setTokAll s.tok rule.after) = .ok u ∧
      r = some (t.replaceAt path u) := by
  unfold applyRule at h
  obtain ⟨f, hf, h⟩ := Res.bind_eq_ok.1 h
  cases f with
  | none => cases h; exact .inl ⟨hf, rfl⟩
  | some pm =>
    obtain ⟨path, mt⟩ := pm
    right
    simp only at h
    cases hs : t.deref path with
    | none => simp only [hs] at h; cases h
    | some s =>
      simp only [hs] at h
      obtain ⟨u, hu, h⟩ := Res.bind_eq_ok.1 h
      rw [treeCopy_eq] at hu
      cases h
      exact ⟨path, mt, s, u, hf, hs, hu, rfl⟩

section
variable (M : Malloc V) {F : Finder V} {eqV : V → V → Bool} {checker : Tree V → Bool} {y x : Nat}

theorem applyRuleAt_live (hF : Finds eqV F) (hyx : y ≠ x) {rule : RewriteRule V} {t : Tree V}
    {r : Option (Tree V)} (hr : applyRule eqV checker rule t = .ok r) :
    ∃ n, ∀ deep ≥ n, ∀ g vs a R, OwnershipSpec.Holds g rule.after a R → ∀ m S, Live g vs y x t m S →
      ∃ m' T, applyRuleAt M F deep checker x ⟨rule.pattern, a⟩ m (.var y) = .ok (r.isSome, m') ∧
        Live g vs y x (r.getD t) m' T := by
  rcases applyRule_cases hr with ⟨hf, rfl⟩ | ⟨path, mt, s, u, hf, hs, hu, rfl⟩
  · refine ⟨0, fun deep _ g vs a R ha m S h => ⟨m, S, ?_, h⟩⟩
    simp [applyRuleAt, (hF checker rule.pattern m _ t S h.at_).1 hf]
  · obtain ⟨B, hB⟩ := matching_bound mt
    refine ⟨calls rule.after + calls (setTokAll s.tok rule.after) + calls s + B, fun deep hn g vs a R ha m S h => ?_⟩
    obtain ⟨matched, sm, e1, e2, e3⟩ := (hF checker rule.pattern m _ t S h.at_).2 path mt s hf hs
    have hroot : (Slot.var y) ≠ .var x := fun e => hyx (by cases e; rfl)
    obtain ⟨S1, b1, b2, b3, _⟩ := h.at_.path hs e2
    have hmx : matched ≠ .var x := by
      rcases b3 with rfl | ⟨a, k, rfl, _⟩
      · exact hroot
      · simp
    obtain ⟨v, m', T, f1, f2⟩ := rewriteAt_spec M (n := deep) h.at_ hroot hs e2 (h.stored ha)
      (fun id _ => inside_mapped b1 hmx (e3 id)) hB hu (by omega)
    exact ⟨m', T, by simp [applyRuleAt, e1, f1], h.step hyx f2⟩

theorem applyFirstAt_live (hF : Finds eqV F) (hyx : y ≠ x) {t : Tree V} :
    ∀ {rules : List (RewriteRule V)} {r : Option (Tree V)}, applyFirst eqV checker rules t = .ok r →
    ∃ n, ∀ deep ≥ n, ∀ g vs mrules, Stored g rules mrules → ∀ m S, Live g vs y x t m S →
      ∃ m' T, applyFirstAt M F deep checker x mrules m (.var y) = .ok (r.isSome, m') ∧
        Live g vs y x (r.getD t) m' T
  | [], r, h => by
    simp only [applyFirst] at h
    cases h
    exact ⟨0, fun deep _ g vs mrules hs m S h => ⟨m, S, by cases hs; simp [applyFirstAt], h⟩⟩
  | rule :: rules, r, h => by
    simp only [applyFirst] at h
    obtain ⟨f, hf, h⟩ := Res.bind_eq_ok.1 h
    obtain ⟨n1, h1⟩ := applyRuleAt_live M hF hyx hf
    cases f with
    | some t' =>
      cases h
      refine ⟨n1, fun deep hd g vs mrules hs m S hm => ?_⟩
      obtain ⟨a, l', R, rfl, ha, hs⟩ := hs
      obtain ⟨m', T, e1, e2⟩ := h1 deep hd g vs a R ha m S hm
      exact ⟨m', T, by simp [applyFirstAt, e1], e2⟩
    | none =>
      obtain ⟨n2, h2⟩ := applyFirstAt_live hF hyx h
      refine ⟨n1 + n2, fun deep hd g vs mrules hs m S hm => ?_⟩
      obtain ⟨a, l', R, rfl, ha, hs⟩ := hs
      obtain ⟨m', T, e1, e2⟩ := h1 deep (by omega) g vs a R ha m S hm
      obtain ⟨m'', T', f1, f2⟩ := h2 deep (by omega) g vs l' hs m' T e2
      exact ⟨m'', T', by simp [applyFirstAt, e1, f1], f2⟩

theorem applyLoopAt_live (hF : Finds eqV F) (hyx : y ≠ x) {rules : List (RewriteRule V)} {cap : Nat} :
    ∀ {rounds counter : Nat} {t u : Tree V} {k : Nat},
    applyLoop eqV checker rules cap rounds counter t = .ok (some (u, k)) →
    ∃ n, ∀ deep ≥ n, ∀ g vs mrules, Stored g rules mrules → ∀ m S, Live g vs y x t m S →
      ∃ m' T, applyLoopAt M F deep checker x mrules cap rounds counter m (.var y) = .ok (k, m') ∧
        Live g vs y x u m' T
  | 0, counter, t, u, k, h => by simp [applyLoop] at h
  | rounds + 1, counter, t, u, k, h => by
    simp only [applyLoop] at h
    obtain ⟨f, hf, h⟩ := Res.bind_eq_ok.1 h
    obtain ⟨n1, h1⟩ := applyFirstAt_live M hF hyx hf
    cases f with
    | none =>
      cases h
      refine ⟨n1, fun deep hd g vs mrules hs m S hm => ?_⟩
      obtain ⟨m', T, e1, e2⟩ := h1 deep hd g vs mrules hs m S hm
      exact ⟨m', T, by simp [applyLoopAt, e1], e2⟩
    | some t' =>
      simp only at h
      by_cases hc : counter + 1 = cap
      · rw [if_pos hc] at h
        cases h
        refine ⟨n1, fun deep hd g vs mrules hs m S hm => ?_⟩
        obtain ⟨m', T, e1, e2⟩ := h1 deep hd g vs mrules hs m S hm
        exact ⟨m', T, by simp [applyLoopAt, e1, hc], e2⟩
      · rw [if_neg hc] at h
        obtain ⟨n2, h2⟩ := applyLoopAt_live hF hyx h
        refine ⟨n1 + n2, fun deep hd g vs mrules hs m S hm => ?_⟩
        obtain ⟨m', T, e1, e2⟩ := h1 deep (by omega) g vs mrules hs m S hm
        obtain ⟨m'', T', f1, f2⟩ := h2 deep (by omega) g vs mrules hs m' T e2
        exact ⟨m'', T', by simp [applyLoopAt, e1, hc, f1], f2⟩

end

end Verif
