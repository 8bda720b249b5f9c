import Verif.Model.Context
import Verif.Props.Trie

namespace Verif.Ctx
open Verif.TrieProps

/-- Content of the trie of placement `pl` as demanded by the operator list. -/
def entries (ops : List (Nat × Op)) (pl : Placement) : SpecMap Nat :=
  (ops.filter (fun p => p.2.placement == pl)).map (fun p => (p.2.name, p.1))

/-- Two infix operators of the same precedence have the same associativity. -/
def AssocConsistent (ops : List (Nat × Op)) : Prop :=
  ∀ p ∈ ops, ∀ q ∈ ops, p.2.placement = .infix → q.2.placement = .infix →
    p.2.prec = q.2.prec → p.2.assoc = q.2.assoc

/-- Invariant of contexts. -/
structure Inv (c : Ctx) : Prop where
  rel : ∀ pl, Rel (c.tries pl) (entries c.ops pl)
  nodup : (c.ops.map (·.1)).Nodup
  fresh : ∀ p ∈ c.ops, p.1 < c.nextAddr
  assoc : AssocConsistent c.ops
  kw : Trie.WF false c.keywords.root

theorem inv_create : Inv create where
  rel _ := rel_create
  nodup := by simp [create]
  fresh := by simp [create]
  assoc := by intro p hp; simp [create] at hp
  kw := Trie.wf_fresh

/-- Search by name and placement. -/
def findOp (ops : List (Nat × Op)) (name : Str) (pl : Placement) : Option (Nat × Op) :=
  ops.find? (fun p => p.2.name == name && p.2.placement == pl)

theorem entries_get (ops : List (Nat × Op)) (name : Str) (pl : Placement) :
    (entries ops pl).get name = (findOp ops name pl).map (·.1) := by
  induction ops with
  | nil => rfl
  | cons p ops ih =>
    unfold entries SpecMap.get findOp at *
    rw [List.filter_cons, List.find?_cons]
    by_cases hp : p.2.placement = pl
    · by_cases hn : p.2.name = name
      · simp [hp, hn]
      · have hb : (p.2.name == name) = false := by simpa using hn
        simpa [hp, hn, hb] using ih
    · have hb : (p.2.placement == pl) = false := by simpa using hp
      simpa [hp, hb] using ih

theorem find_addr {ops : List (Nat × Op)} (h : (ops.map (·.1)).Nodup) {p : Nat × Op}
    (hp : p ∈ ops) : ops.find? (fun q => q.1 == p.1) = some p := by
  induction ops with
  | nil => cases hp
  | cons q ops ih =>
    simp only [List.map_cons, List.nodup_cons] at h
    rw [List.find?_cons]
    rcases List.mem_cons.mp hp with rfl | hp'
    · simp
    · have : q.1 ≠ p.1 := fun hc => h.1 (hc ▸ List.mem_map_of_mem hp')
      have hb : (q.1 == p.1) = false := by simpa using this
      simpa [hb] using ih h.2 hp'

theorem Inv.contains {c : Ctx} (h : Inv c) (name : Str) (pl : Placement) :
    ((c.tries pl).contains name).1 = (findOp c.ops name pl).isSome ∧
    (∀ p, findOp c.ops name pl = some p → ((c.tries pl).contains name).2 = some p.1) := by
  have hg := (h.rel pl).get name
  rw [entries_get] at hg
  obtain ⟨h1, h2⟩ := Trie.contains_spec (c.tries pl) name
  constructor
  · rw [h1]
    cases hm : Trie.mem (c.tries pl).root name with
    | false =>
      rw [hm] at hg
      cases hf : findOp c.ops name pl with
      | none => rfl
      | some p => simp [hf] at hg
    | true =>
      obtain ⟨e, he, hes⟩ := List.mem_map.mp (((h.rel pl).mem name).mp hm)
      have := (h.rel pl).val name e.2 (by rw [← hes]; exact he)
      rw [hm, this] at hg
      cases hf : findOp c.ops name pl with
      | none => simp [hf] at hg
      | some p => rfl
  · intro p hp
    rw [hp] at hg
    have hm : Trie.mem (c.tries pl).root name = true := by
      by_contra hc
      simp [Bool.eq_false_iff.mpr hc] at hg
    rw [h2 hm]
    simp only [hm, if_true] at hg
    exact hg.symm

theorem findOp_mem {ops : List (Nat × Op)} {name pl p} (h : findOp ops name pl = some p) :
    p ∈ ops ∧ p.2.name = name ∧ p.2.placement = pl := by
  have h1 := List.find?_some h
  simp only [Bool.and_eq_true, beq_iff_eq] at h1
  exact ⟨List.mem_of_find?_eq_some h, h1⟩

/-- Lookup never is undefined and searches the operator list. -/
theorem Inv.lookup {c : Ctx} (h : Inv c) (name : Str) (pl : Placement) :
    c.lookup name pl = .ok (findOp c.ops name pl) := by
  obtain ⟨h1, h2⟩ := h.contains name pl
  unfold Ctx.lookup
  rcases hc : (c.tries pl).contains name with ⟨b, d⟩
  rw [hc] at h1 h2
  cases hf : findOp c.ops name pl with
  | none =>
    rw [hf] at h1
    simp only [Option.isSome_none] at h1
    subst h1
    rfl
  | some p =>
    rw [hf] at h1
    simp only [Option.isSome_some] at h1
    subst h1
    have := h2 p hf
    simp only at this
    subst this
    have hd := find_addr h.nodup (findOp_mem hf).1
    simp [deref, hd]

theorem entries_append (ops : List (Nat × Op)) (p : Nat × Op) (pl : Placement) :
    entries (ops ++ [p]) pl =
      if p.2.placement = pl then entries ops pl ++ [(p.2.name, p.1)] else entries ops pl := by
  unfold entries
  rw [List.filter_append]
  by_cases hp : p.2.placement = pl <;> simp [hp]

theorem addElem_step {α : Type} (t : Trie α) (s : Str) (a : α) (h : Trie.mem t.root s = false)
    {t' : Trie α} (hs : step t (.add s a) = .ok t') (hl : Trie.Legal s) :
    t.addElem s a = .ok t' := by
  obtain ⟨n', h1, -, -⟩ := Trie.addNode_spec t.root s hl
  rw [h] at h1
  unfold Trie.addElem
  unfold step at hs
  simp only [Trie.addStr, h1, Res.bind_ok, Res.pure_eq, Bool.not_false] at hs ⊢
  exact hs

/-- Outcome of `addOp`. -/
theorem Inv.addOp {c : Ctx} (h : Inv c) (op : Op) (hs : Storable op.name) :
    (((findOp c.ops op.name op.placement).isSome ∨ c.assocClash op = true) ∧
      c.addOp op = .ok (c, none)) ∨
    (findOp c.ops op.name op.placement = none ∧ c.assocClash op = false ∧
      ∃ c', c.addOp op = .ok (c', some c.nextAddr) ∧ Inv c' ∧
        c'.ops = c.ops ++ [(c.nextAddr, { op with id := c.ops.length })] ∧
        c'.glue = c.glue ∧ c'.nextAddr = c.nextAddr + 1 ∧
        (∀ s, Trie.mem c'.keywords.root s = (decide (s = op.name) || Trie.mem c.keywords.root s))) := by
  have hlk := h.lookup op.name op.placement
  cases hf : findOp c.ops op.name op.placement with
  | some p =>
    left
    refine ⟨.inl rfl, ?_⟩
    simp [Ctx.addOp, hlk, hf]
  | none =>
    cases hcl : c.assocClash op with
    | true =>
      left
      refine ⟨.inr rfl, ?_⟩
      simp [Ctx.addOp, hlk, hf, hcl]
    | false =>
      right
      refine ⟨rfl, rfl, ?_⟩
      have hl : Trie.Legal op.name := storable_legal hs
      have hm : Trie.mem (c.tries op.placement).root op.name = false := by
        have := (h.contains op.name op.placement).1
        rw [hf, (Trie.contains_spec _ _).1] at this
        exact this
      obtain ⟨t', ht', hrel⟩ := step_rel (h.rel op.placement) (.add op.name c.nextAddr) hs
      have hadd := addElem_step _ _ _ hm ht' hl
      obtain ⟨k', hk1, hk2, -⟩ := Trie.addNode_spec c.keywords.root op.name hl
      have hnin : (entries c.ops op.placement).any (fun p => p.1 == op.name) = false := by
        rw [Bool.eq_false_iff]
        intro hc
        have := ((h.rel op.placement).mem op.name).mpr ((any_key _ _).mp hc)
        rw [hm] at this
        cases this
      simp only [specStep, hnin, Bool.false_eq_true, if_false] at hrel
      refine ⟨⟨c.glue, c.ops ++ [(c.nextAddr, { op with id := c.ops.length })], c.nextAddr + 1,
        setTrie c.tries op.placement t', ⟨if (!Trie.mem c.keywords.root op.name) = true
          then c.keywords.count + 1 else c.keywords.count, k'⟩⟩,
        by simp [Ctx.addOp, hlk, hf, hcl, hadd, Trie.addStr, hk1], ?_, rfl, rfl, rfl, ?_⟩
      · constructor
        · intro pl
          rw [entries_append]
          simp only [setTrie]
          by_cases hpl : pl = op.placement
          · subst hpl
            simpa using hrel
          · simpa [hpl, Ne.symm hpl] using h.rel pl
        · simp only [List.map_append, List.map_cons, List.map_nil]
          rw [List.nodup_append]
          refine ⟨h.nodup, by simp, ?_⟩
          intro x hx y hy
          simp only [List.mem_singleton] at hy
          obtain ⟨p, hp, rfl⟩ := List.mem_map.mp hx
          have := h.fresh p hp
          omega
        · intro p hp
          rcases List.mem_append.mp hp with hp | hp
          · have := h.fresh p hp
            show p.1 < c.nextAddr + 1
            omega
          · simp only [List.mem_singleton] at hp
            subst hp
            show c.nextAddr < c.nextAddr + 1
            omega
        · have key : ∀ p ∈ c.ops, p.2.placement = .infix → op.placement = .infix →
              p.2.prec = op.prec → p.2.assoc = op.assoc := by
            intro p hp h1 h2 h3
            simp only [assocClash, h2, beq_self_eq_true, Bool.true_and, List.any_eq_false,
              Bool.and_eq_true, beq_iff_eq, bne_iff_ne, ne_eq, not_and, not_not] at hcl
            exact hcl p hp ⟨h1, h3⟩
          intro p hp q hq h1 h2 h3
          simp only [List.mem_append, List.mem_singleton] at hp hq
          rcases hp with hp | rfl <;> rcases hq with hq | rfl
          · exact h.assoc p hp q hq h1 h2 h3
          · exact key p hp h1 h2 h3
          · exact (key q hq h2 h1 h3.symm).symm
          · rfl
        · exact Trie.WF.weaken (Trie.addNode_wf _ _ h.kw hk1)
      · intro s
        simp only
        rw [hk2]
        by_cases hsn : s = op.name <;> simp [hsn]

/-- Deleting from the list by address deletes exactly the entry of that name. -/
theorem entries_filter {c : Ctx} (h : Inv c) {p : Nat × Op} (hp : p ∈ c.ops) (pl : Placement) :
    entries (c.ops.filter (fun q => q.1 != p.1)) pl =
      if p.2.placement = pl then (entries c.ops pl).filter (fun e => e.1 != p.2.name)
      else entries c.ops pl := by
  have hnd := h.nodup
  have hk : ∀ q ∈ c.ops, q.2.placement = p.2.placement → q.2.name = p.2.name → q = p := by
    intro q hq h1 h2
    have e1 : (p.2.name, p.1) ∈ entries c.ops p.2.placement :=
      List.mem_map.mpr ⟨p, List.mem_filter.mpr ⟨hp, by simp⟩, rfl⟩
    have e2 : (q.2.name, q.1) ∈ entries c.ops p.2.placement :=
      List.mem_map.mpr ⟨q, List.mem_filter.mpr ⟨hq, by simp [h1]⟩, rfl⟩
    have v1 := (h.rel _).val _ _ e1
    have v2 := (h.rel _).val _ _ e2
    rw [h2, v1] at v2
    have ha : p.1 = q.1 := by simpa using v2
    have f1 := find_addr hnd hp
    have f2 := find_addr hnd hq
    rw [← ha, f1] at f2
    simpa using f2.symm
  have hmem : ∀ q ∈ c.ops, (q.1 != p.1) = false → q = p := by
    intro q hq hq1
    have ha : q.1 = p.1 := by simpa using hq1
    have f1 := find_addr hnd hp
    have f2 := find_addr hnd hq
    rw [ha, f1] at f2
    simpa using f2.symm
  unfold entries
  by_cases hpl : p.2.placement = pl
  · subst hpl
    rw [if_pos rfl, List.filter_map, List.filter_filter, List.filter_filter]
    congr 1
    apply List.filter_congr
    intro q hq
    simp only [Function.comp]
    cases h1 : (q.1 != p.1) with
    | false =>
      have := hmem q hq h1
      subst this
      simp
    | true =>
      cases h2 : (q.2.placement == p.2.placement) with
      | false => simp
      | true =>
        have h2' : q.2.placement = p.2.placement := by simpa using h2
        have : q.2.name ≠ p.2.name := by
          intro hc
          have := hk q hq h2' hc
          subst this
          simp at h1
        simp [this]
  · rw [if_neg hpl, List.filter_filter]
    congr 1
    apply List.filter_congr
    intro q hq
    cases h2 : (q.2.placement == pl) with
    | false => simp
    | true =>
      have : q.1 ≠ p.1 := by
        intro hc
        have := hmem q hq (by simp [hc])
        subst this
        simp at h2
        exact hpl h2
      simp [this]

theorem Inv.deleteOp {c : Ctx} (h : Inv c) (name : Str) (pl : Placement) :
    (findOp c.ops name pl = none ∧ c.deleteOp name pl = .ok (c, false)) ∨
    (∃ p, findOp c.ops name pl = some p ∧
      ∃ c', c.deleteOp name pl = .ok (c', true) ∧ Inv c' ∧
        c'.ops = c.ops.filter (fun q => q.1 != p.1) ∧ c'.glue = c.glue ∧
        c'.nextAddr = c.nextAddr ∧
        (∀ s, Trie.mem c'.keywords.root s = (Trie.mem c.keywords.root s && decide (s ≠ name)))) := by
  obtain ⟨h1, h2⟩ := h.contains name pl
  rcases hc : (c.tries pl).contains name with ⟨b, d⟩
  rw [hc] at h1 h2
  cases hf : findOp c.ops name pl with
  | none =>
    left
    rw [hf] at h1
    simp only [Option.isSome_none] at h1
    subst h1
    refine ⟨rfl, ?_⟩
    simp only [Ctx.deleteOp, hc]
  | some p =>
    right
    rw [hf] at h1
    simp only [Option.isSome_some] at h1
    subst h1
    have := h2 p hf
    simp only at this
    subst this
    obtain ⟨hp, hpn, hpp⟩ := findOp_mem hf
    have hd := find_addr h.nodup hp
    obtain ⟨t', ht', hrel⟩ := step_rel (h.rel pl) (.remove name) trivial
    simp only [step] at ht'
    obtain ⟨k1, k2, k3, k4, k5⟩ := Trie.removeNode_spec c.keywords.root false name h.kw
    rcases hr : Trie.removeNode c.keywords.root false name with ⟨dec, o⟩
    rw [hr] at k1 k2 k3 k4 k5
    cases o with
    | none => exact absurd rfl (k5 rfl)
    | some r =>
      have hrem : c.keywords.removeStr name
          = .ok ⟨if dec then c.keywords.count - 1 else c.keywords.count, r⟩ := by
        simp [Trie.removeStr, hr]
      refine ⟨p, rfl, ⟨c.glue, c.ops.filter (fun q => q.1 != p.1), c.nextAddr,
        setTrie c.tries pl t', ⟨if dec then c.keywords.count - 1 else c.keywords.count, r⟩⟩,
        by simp [Ctx.deleteOp, hc, deref, hd, hrem, ht'], ?_, rfl, rfl, rfl, ?_⟩
      · constructor
        · intro pl'
          rw [entries_filter h hp]
          simp only [setTrie]
          by_cases hpl : pl' = pl
          · subst hpl
            simpa [hpp, hpn, specStep] using hrel
          · have : ¬ p.2.placement = pl' := by rw [hpp]; exact Ne.symm hpl
            simpa [hpl, this] using h.rel pl'
        · exact (List.Sublist.map _ List.filter_sublist).nodup h.nodup
        · intro q hq
          exact h.fresh q (List.mem_filter.mp hq).1
        · intro q hq q' hq'
          exact h.assoc q (List.mem_filter.mp hq).1 q' (List.mem_filter.mp hq').1
        · exact k4 r rfl
      · intro s
        simp only
        simp only [Trie.memO] at k2
        rw [k2]
        by_cases hs : s = name <;> simp [hs]

end Verif.Ctx
