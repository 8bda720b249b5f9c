import Verif.Lemmas.Context

/-!
# C10 - C13: the operator context

Specification: the list of operators present, changed by the naive operations
`specStep`.  A history is an arbitrary list of additions and deletions.
-/

namespace Verif.CtxProps
open Verif Verif.TrieProps

/-- One call of the context interface. -/
inductive CtxOp where
  | add (op : Op)
  | delete (name : Str) (pl : Placement)

/-- Only names the trie can store are added (otherwise the program ends with a
defect message, `C01_unstorable_defect`). -/
def Legal : CtxOp → Prop
  | .add op => Storable op.name
  | .delete _ _ => True

/-- Name and placement are taken. -/
def Taken (ops : List Op) (name : Str) (pl : Placement) : Bool :=
  ops.any fun o => o.name == name && o.placement == pl

/-- An infix operator of the same precedence has the other associativity. -/
def Clash (ops : List Op) (op : Op) : Bool :=
  ops.any fun o => op.placement == .infix && o.placement == .infix && o.prec == op.prec &&
    o.assoc != op.assoc

/-- Specification of one call on the list of operators present. -/
def specStep (ops : List Op) : CtxOp → List Op
  | .add op => if Taken ops op.name op.placement || Clash ops op then ops else ops ++ [op]
  | .delete name pl => ops.filter fun o => !(o.name == name && o.placement == pl)

/-- Specification of lookup. -/
def specLookup (ops : List Op) (name : Str) (pl : Placement) : Option Op :=
  ops.find? fun o => o.name == name && o.placement == pl

/-- The context calls. -/
def step (c : Ctx) : CtxOp → Res Ctx
  | .add op => do
    let (c', _) ← c.addOp op
    pure c'
  | .delete name pl => do
    let (c', _) ← c.deleteOp name pl
    pure c'

def run (c : Ctx) : List CtxOp → Res Ctx
  | [] => .ok c
  | o :: os => do
    let c' ← step c o
    run c' os

/-- An operator without the id the context assigns. -/
def strip (o : Op) : Op := { o with id := 0 }

structure Sim (c : Ctx) (ops : List Op) : Prop where
  inv : Ctx.Inv c
  ops_eq : c.ops.map (fun p => strip p.2) = ops.map strip

theorem sim_create : Sim Ctx.create [] := ⟨Ctx.inv_create, rfl⟩

theorem any_strip {ops : List (Nat × Op)} {sp : List Op}
    (h : ops.map (fun p => strip p.2) = sp.map strip) (f : Op → Bool)
    (hf : ∀ o, f (strip o) = f o) : ops.any (fun p => f p.2) = sp.any f := by
  have h1 : ops.any (fun p => f p.2) = (ops.map (fun p => strip p.2)).any f := by
    rw [List.any_map]; congr 1; funext p; exact (hf _).symm
  have h2 : sp.any f = (sp.map strip).any f := by
    rw [List.any_map]; congr 1; funext p; exact (hf _).symm
  rw [h1, h2, h]

theorem find_strip {ops : List (Nat × Op)} {sp : List Op}
    (h : ops.map (fun p => strip p.2) = sp.map strip) (f : Op → Bool)
    (hf : ∀ o, f (strip o) = f o) :
    (ops.find? (fun p => f p.2)).map (fun p => strip p.2) = (sp.find? f).map strip := by
  have h1 : (ops.map (fun p => strip p.2)).find? f
      = (ops.find? (fun p => f p.2)).map (fun p => strip p.2) := by
    rw [List.find?_map]
    have : (f ∘ fun p : Nat × Op => strip p.2) = fun p => f p.2 := by
      funext p; exact hf _
    rw [this]
  have h2 : (sp.map strip).find? f = (sp.find? f).map strip := by
    rw [List.find?_map]
    have : f ∘ strip = f := by funext p; exact hf _
    rw [this]
  rw [← h1, ← h2, h]

theorem Sim.taken {c : Ctx} {ops : List Op} (h : Sim c ops) (name : Str) (pl : Placement) :
    (Ctx.findOp c.ops name pl).isSome = Taken ops name pl := by
  have := any_strip h.ops_eq (fun o => o.name == name && o.placement == pl) (fun o => rfl)
  rw [Taken, ← this, Ctx.findOp, List.isSome_find?]

theorem Sim.clash {c : Ctx} {ops : List Op} (h : Sim c ops) (op : Op) :
    c.assocClash op = Clash ops op := by
  have := any_strip h.ops_eq (fun o => op.placement == .infix && o.placement == .infix &&
    o.prec == op.prec && o.assoc != op.assoc) (fun o => rfl)
  rw [Clash, ← this, Ctx.assocClash]
  cases hp : (op.placement == .infix) <;> simp

theorem sim_step {c : Ctx} {ops : List Op} (h : Sim c ops) (o : CtxOp) (ho : Legal o) :
    ∃ c', step c o = .ok c' ∧ Sim c' (specStep ops o) := by
  cases o with
  | add op =>
    rcases h.inv.addOp op ho with ⟨h1, h2⟩ | ⟨h1, h2, c', h3, h4, h5, -⟩
    · refine ⟨c, by simp [step, h2], ?_⟩
      rw [h.taken, h.clash] at h1
      have : (Taken ops op.name op.placement || Clash ops op) = true := by
        rcases h1 with h1 | h1 <;> simp [h1]
      simpa [specStep, this] using h
    · refine ⟨c', by simp [step, h3], h4, ?_⟩
      have e1 : Taken ops op.name op.placement = false := by rw [← h.taken, h1]; rfl
      have e2 : Clash ops op = false := by rw [← h.clash, h2]
      simp only [specStep, e1, e2, Bool.or_false, Bool.false_eq_true, if_false, h5,
        List.map_append, h.ops_eq]
      rfl
  | delete name pl =>
    rcases h.inv.deleteOp name pl with ⟨h1, h2⟩ | ⟨p, h1, c', h3, h4, h5, -⟩
    · refine ⟨c, by simp [step, h2], h.inv, ?_⟩
      have e1 : Taken ops name pl = false := by rw [← h.taken, h1]; rfl
      have : specStep ops (.delete name pl) = ops := by
        simp only [specStep]
        rw [List.filter_eq_self]
        intro o ho
        simp only [Taken, List.any_eq_false] at e1
        have := e1 o ho
        simp only [Bool.not_eq_true] at this
        simp only [this, Bool.not_false]
      rw [this]
      exact h.ops_eq
    · refine ⟨c', by simp [step, h3], h4, ?_⟩
      rw [h5]
      obtain ⟨hp, hpn, hpp⟩ := Ctx.findOp_mem h1
      have key : c.ops.filter (fun q => q.1 != p.1)
          = c.ops.filter (fun q => !(q.2.name == name && q.2.placement == pl)) := by
        apply List.filter_congr
        intro q hq
        have : q.1 = p.1 ↔ (q.2.name = name ∧ q.2.placement = pl) := by
          constructor
          · intro hc
            have f1 := Ctx.find_addr h.inv.nodup hp
            have f2 := Ctx.find_addr h.inv.nodup hq
            rw [hc, f1] at f2
            have : p = q := by simpa using f2
            subst this
            exact ⟨hpn, hpp⟩
          · rintro ⟨g1, g2⟩
            have e1 : (p.2.name, p.1) ∈ Ctx.entries c.ops pl :=
              List.mem_map.mpr ⟨p, List.mem_filter.mpr ⟨hp, by simp [hpp]⟩, rfl⟩
            have e2 : (q.2.name, q.1) ∈ Ctx.entries c.ops pl :=
              List.mem_map.mpr ⟨q, List.mem_filter.mpr ⟨hq, by simp [g2]⟩, rfl⟩
            have v1 := (h.inv.rel _).val _ _ e1
            have v2 := (h.inv.rel _).val _ _ e2
            rw [g1, ← hpn, v1] at v2
            simpa using v2.symm
        by_cases hc : q.1 = p.1
        · have := this.mp hc
          simp [hc, this]
        · have h' : ¬ (q.2.name = name ∧ q.2.placement = pl) := fun h => hc (this.mpr h)
          have : (q.1 != p.1) = true := by simpa using hc
          rw [this]
          by_cases hn : q.2.name = name
          · have : ¬ q.2.placement = pl := fun h => h' ⟨hn, h⟩
            simp [this]
          · simp [hn]
      have g : ∀ o : Op, (!((strip o).name == name && (strip o).placement == pl))
          = !(o.name == name && o.placement == pl) := fun o => rfl
      have l1 : (c.ops.filter (fun q => !(q.2.name == name && q.2.placement == pl))).map
          (fun p => strip p.2) = (c.ops.map (fun p => strip p.2)).filter
          (fun o => !(o.name == name && o.placement == pl)) := by
        rw [List.filter_map]
        rfl
      have l2 : (ops.filter (fun o => !(o.name == name && o.placement == pl))).map strip
          = (ops.map strip).filter (fun o => !(o.name == name && o.placement == pl)) := by
        rw [List.filter_map]
        rfl
      simp only [specStep]
      rw [key, l1, l2, h.ops_eq]

theorem sim_run {c : Ctx} {ops : List Op} (h : Sim c ops) (os : List CtxOp)
    (hos : ∀ o ∈ os, Legal o) :
    ∃ c', run c os = .ok c' ∧ Sim c' (os.foldl specStep ops) := by
  induction os generalizing c ops with
  | nil => exact ⟨c, rfl, h⟩
  | cons o os ih =>
    obtain ⟨c1, h1, h2⟩ := sim_step h o (hos o List.mem_cons_self)
    obtain ⟨c2, h3, h4⟩ := ih h2 (fun o' ho' => hos o' (List.mem_cons_of_mem _ ho'))
    exact ⟨c2, by simp [run, h1, h3], h4⟩

/-- **C10**, lookup: after any history (no undefined behaviour occurs) lookup of
any name and placement finds exactly the operator of the specification (up to
the id, which the context assigns). -/
theorem C10_lookup_reflects_history (os : List CtxOp) (hos : ∀ o ∈ os, Legal o) :
    ∃ c, run Ctx.create os = .ok c ∧
      ∀ name pl, ∃ r, c.lookup name pl = .ok r ∧
        r.map (fun p => strip p.2) = (specLookup (os.foldl specStep []) name pl).map strip := by
  obtain ⟨c, h1, h2⟩ := sim_run sim_create os hos
  refine ⟨c, h1, fun name pl => ⟨_, h2.inv.lookup name pl, ?_⟩⟩
  exact find_strip h2.ops_eq (fun o => o.name == name && o.placement == pl) (fun o => rfl)

/-- **C10**, refusal: after any history an addition is refused, leaving the
context unchanged, exactly when name and placement are taken or the
associativity is inconsistent; otherwise it succeeds. -/
theorem C10_refusal (os : List CtxOp) (hos : ∀ o ∈ os, Legal o) (op : Op)
    (hop : Storable op.name) :
    ∃ c, run Ctx.create os = .ok c ∧
      ((Taken (os.foldl specStep []) op.name op.placement = true ∨
          Clash (os.foldl specStep []) op = true) → c.addOp op = .ok (c, none)) ∧
      (¬ (Taken (os.foldl specStep []) op.name op.placement = true ∨
          Clash (os.foldl specStep []) op = true) → ∃ c' a, c.addOp op = .ok (c', some a)) := by
  obtain ⟨c, h1, h2⟩ := sim_run sim_create os hos
  refine ⟨c, h1, ?_, ?_⟩
  · intro hc
    rcases h2.inv.addOp op hop with ⟨-, g⟩ | ⟨g1, g2, -⟩
    · exact g
    · rw [← h2.taken, ← h2.clash, g1, g2] at hc
      simp at hc
  · intro hc
    rcases h2.inv.addOp op hop with ⟨g, -⟩ | ⟨g1, g2, c', g3, -⟩
    · rw [h2.taken, h2.clash] at g
      exact absurd g hc
    · exact ⟨c', _, g3⟩

/-- **C10**, deletion: it reports whether the operator was present. -/
theorem C10_delete (os : List CtxOp) (hos : ∀ o ∈ os, Legal o) (name : Str) (pl : Placement) :
    ∃ c c', run Ctx.create os = .ok c ∧
      c.deleteOp name pl = .ok (c', Taken (os.foldl specStep []) name pl) := by
  obtain ⟨c, h1, h2⟩ := sim_run sim_create os hos
  rcases h2.inv.deleteOp name pl with ⟨g1, g2⟩ | ⟨p, g1, c', g2, -⟩
  · exact ⟨c, c, h1, by rw [g2, ← h2.taken, g1]; rfl⟩
  · exact ⟨c, c', h1, by rw [g2, ← h2.taken, g1]; rfl⟩

/-- **C11.** After any history two infix operators of the same precedence found
by lookup have the same associativity. -/
theorem C11_assoc_consistent (os : List CtxOp) (hos : ∀ o ∈ os, Legal o) :
    ∃ c, run Ctx.create os = .ok c ∧
      ∀ n1 n2 a1 a2 o1 o2, c.lookup n1 .infix = .ok (some (a1, o1)) →
        c.lookup n2 .infix = .ok (some (a2, o2)) → o1.prec = o2.prec → o1.assoc = o2.assoc := by
  obtain ⟨c, h1, h2⟩ := sim_run sim_create os hos
  refine ⟨c, h1, ?_⟩
  intro n1 n2 a1 a2 o1 o2 l1 l2 hp
  rw [h2.inv.lookup] at l1 l2
  have l1 : Ctx.findOp c.ops n1 .infix = some (a1, o1) := by simpa using l1
  have l2 : Ctx.findOp c.ops n2 .infix = some (a2, o2) := by simpa using l2
  obtain ⟨m1, -, p1⟩ := Ctx.findOp_mem l1
  obtain ⟨m2, -, p2⟩ := Ctx.findOp_mem l2
  exact h2.inv.assoc _ m1 _ m2 p1 p2 hp

/-! ## C12: ids -/

/-- The ids of the operators found by lookup under two names. -/
def idOf (c : Ctx) (name : Str) (pl : Placement) : Option Nat :=
  match c.lookup name pl with
  | .ok (some p) => some p.2.id
  | _ => none

def fn (s : String) : Op := Op.getFunction s.toList (.fixed 1)

def clashHistory : List CtxOp :=
  [.add (fn "f"), .add (fn "g"), .delete "f".toList .function, .add (fn "h")]

/-- **C12**, negation of the full statement: after defining f and g, deleting f
and defining h, the different operators g and h have the same id. -/
theorem C12_same_id_witness :
    ∃ c, run Ctx.create clashHistory = .ok c ∧
      idOf c "g".toList .function = some 1 ∧ idOf c "h".toList .function = some 1 := by
  obtain ⟨c, h, -⟩ := sim_run sim_create clashHistory
    (by simp only [clashHistory, List.forall_mem_cons, List.not_mem_nil, false_imp_iff,
          implies_true, and_true, Legal]; decide)
  refine ⟨c, h, ?_⟩
  have key : (match run Ctx.create clashHistory with
    | .ok c => decide (idOf c "g".toList .function = some 1 ∧
        idOf c "h".toList .function = some 1)
    | _ => false) = true := by decide +kernel
  rw [h] at key
  simpa using key

/-- Phases of a history: an addition, or a batch of deletions. -/
inductive Phase where
  | add (op : Op)
  | deletes (ds : List (Str × Placement))

def Phase.ops : Phase → List CtxOp
  | .add op => [.add op]
  | .deletes ds => ds.map fun d => .delete d.1 d.2

/-- After each batch of deletions the operators left are the oldest ones (they
are a prefix of those present before): only the most recent operators have been
deleted. -/
def StackLike : List Op → List Phase → Prop
  | _, [] => True
  | ops, .add op :: h => StackLike (specStep ops (.add op)) h
  | ops, .deletes ds :: h =>
    (Phase.ops (.deletes ds)).foldl specStep ops <+: ops ∧
      StackLike ((Phase.ops (.deletes ds)).foldl specStep ops) h

/-- ids are positions. -/
def IdsOk (c : Ctx) : Prop := c.ops.map (fun p => p.2.id) = List.range c.ops.length

theorem deletes_sublist {c : Ctx} {sp : List Op} (h : Sim c sp) (ds : List (Str × Placement)) {c' : Ctx}
    (hr : run c (Phase.ops (.deletes ds)) = .ok c') : c'.ops.Sublist c.ops := by
  induction ds generalizing c sp with
  | nil =>
    simp only [Phase.ops, List.map_nil, run, Res.ok.injEq] at hr
    subst hr
    exact List.Sublist.refl _
  | cons d ds ih =>
    obtain ⟨c1, h1, h2⟩ := sim_step h (.delete d.1 d.2) trivial
    simp only [Phase.ops, List.map_cons, run, h1, Res.bind_ok] at hr
    have h3 := ih h2 hr
    refine h3.trans ?_
    rcases h.inv.deleteOp d.1 d.2 with ⟨-, g⟩ | ⟨p, -, c'', g, -, g5, -⟩
    · simp only [step, g, Res.bind_ok, Res.pure_eq, Res.ok.injEq] at h1
      subst h1
      exact List.Sublist.refl _
    · simp only [step, g, Res.bind_ok, Res.pure_eq, Res.ok.injEq] at h1
      subst h1
      rw [g5]
      exact List.filter_sublist

theorem prefix_of_sublist_map {α β : Type} (f : α → β) {l' l : List α} (h : l'.Sublist l)
    (hn : (l.map f).Nodup) (hp : l'.map f <+: l.map f) : l' <+: l := by
  induction l generalizing l' with
  | nil => rw [List.sublist_nil.mp h]; exact List.nil_prefix
  | cons a l ih =>
    cases l' with
    | nil => exact List.nil_prefix
    | cons b l' =>
      simp only [List.map_cons, List.cons_prefix_cons] at hp
      simp only [List.map_cons, List.nodup_cons] at hn
      have hb : b = a := by
        have hm : b ∈ a :: l := h.subset List.mem_cons_self
        rcases List.mem_cons.mp hm with hm | hm
        · exact hm
        · exact absurd (hp.1 ▸ List.mem_map_of_mem hm) hn.1
      subst hb
      rw [List.cons_prefix_cons]
      refine ⟨rfl, ih ?_ hn.2 hp.2⟩
      exact List.cons_sublist_cons.mp h

def key (o : Op) : Str × Placement := (o.name, o.placement)

theorem inv_keys {c : Ctx} (h : Ctx.Inv c) : (c.ops.map (fun p => key p.2)).Nodup := by
  have hnd := h.nodup
  unfold List.Nodup at *
  rw [List.pairwise_map] at *
  apply hnd.imp_of_mem
  intro p q hp hq hne hk
  apply hne
  have hk1 : p.2.name = q.2.name := congrArg Prod.fst hk
  have hk2 : p.2.placement = q.2.placement := congrArg Prod.snd hk
  have e1 : (p.2.name, p.1) ∈ Ctx.entries c.ops p.2.placement :=
    List.mem_map.mpr ⟨p, List.mem_filter.mpr ⟨hp, by simp⟩, rfl⟩
  have e2 : (q.2.name, q.1) ∈ Ctx.entries c.ops p.2.placement :=
    List.mem_map.mpr ⟨q, List.mem_filter.mpr ⟨hq, by simp [hk2]⟩, rfl⟩
  have v1 := (h.rel _).val _ _ e1
  have v2 := (h.rel _).val _ _ e2
  rw [← hk1, v1] at v2
  simpa using v2

theorem ids_run {c : Ctx} {sp : List Op} (h : Sim c sp) (hid : IdsOk c) (ph : List Phase)
    (hl : ∀ p ∈ ph, ∀ o ∈ p.ops, Legal o) (hst : StackLike sp ph) :
    ∃ c', run c (ph.flatMap Phase.ops) = .ok c' ∧ IdsOk c' ∧ Ctx.Inv c' := by
  have run_append : ∀ (xs ys : List CtxOp) (c c1 : Ctx), run c xs = .ok c1 →
      run c (xs ++ ys) = run c1 ys := by
    intro xs ys
    induction xs with
    | nil =>
      intro c c1 h
      simp only [run, Res.ok.injEq] at h
      subst h
      rfl
    | cons x xs ih =>
      intro c c1 h
      simp only [run, List.cons_append] at h ⊢
      obtain ⟨c2, g1, g2⟩ := Res.bind_eq_ok.mp h
      rw [g1]
      exact ih c2 c1 g2
  induction ph generalizing c sp with
  | nil => exact ⟨c, rfl, hid, h.inv⟩
  | cons p ph ih =>
    obtain ⟨c1, h1, h2⟩ := sim_run h p.ops (hl p List.mem_cons_self)
    rw [List.flatMap_cons, run_append _ _ _ _ h1]
    have hl' := fun q hq => hl q (List.mem_cons_of_mem _ hq)
    cases p with
    | add op =>
      refine ih h2 ?_ hl' hst
      have h1' : step c (.add op) = .ok c1 := by
        simp only [Phase.ops, run] at h1
        obtain ⟨c2, g1, g2⟩ := Res.bind_eq_ok.mp h1
        simp only [Res.ok.injEq] at g2
        subst g2
        exact g1
      have hop : Storable op.name := hl (.add op) List.mem_cons_self (.add op) (by simp [Phase.ops])
      rcases h.inv.addOp op hop with ⟨-, g⟩ | ⟨-, -, c', g, -, g5, -⟩
      · simp only [step, g, Res.bind_ok, Res.pure_eq, Res.ok.injEq] at h1'
        subst h1'
        exact hid
      · simp only [step, g, Res.bind_ok, Res.pure_eq, Res.ok.injEq] at h1'
        subst h1'
        unfold IdsOk at *
        rw [g5]
        simp [hid, List.range_succ]
    | deletes ds =>
      obtain ⟨hpre, hst'⟩ := hst
      refine ih h2 ?_ hl' hst'
      have hsub := deletes_sublist h ds h1
      have hkeys : c1.ops.map (fun p => key p.2) <+: c.ops.map (fun p => key p.2) := by
        have e : ∀ (c : Ctx) (sp : List Op), Sim c sp →
            c.ops.map (fun p => key p.2) = sp.map key := by
          intro c sp hs
          have := congrArg (List.map key) hs.ops_eq
          rw [List.map_map, List.map_map] at this
          exact this
        rw [e _ _ h2, e _ _ h]
        exact hpre.map key
      obtain ⟨rest, hrest⟩ := prefix_of_sublist_map _ hsub (inv_keys h.inv) hkeys
      unfold IdsOk at *
      rw [← hrest] at hid
      rw [List.map_append, List.length_append, List.range_add] at hid
      exact (List.append_inj hid (by simp)).1

/-- **C12** (partial: histories in which deletions only remove the most recently
added operators, in particular all histories without deletion): operators found
by lookup under different names or placements have different ids. -/
theorem C12_ids_unique_partial (ph : List Phase) (hl : ∀ p ∈ ph, ∀ o ∈ p.ops, Legal o)
    (hst : StackLike [] ph) :
    ∃ c, run Ctx.create (ph.flatMap Phase.ops) = .ok c ∧
      ∀ n1 p1 n2 p2 i, idOf c n1 p1 = some i → idOf c n2 p2 = some i → n1 = n2 ∧ p1 = p2 := by
  obtain ⟨c, h1, h2, h3⟩ := ids_run sim_create (by simp [IdsOk, Ctx.create]) ph hl hst
  refine ⟨c, h1, ?_⟩
  intro n1 p1 n2 p2 i g1 g2
  simp only [idOf, h3.lookup] at g1 g2
  cases f1 : Ctx.findOp c.ops n1 p1 with
  | none => simp [f1] at g1
  | some a =>
    cases f2 : Ctx.findOp c.ops n2 p2 with
    | none => simp [f2] at g2
    | some b =>
      rw [f1] at g1
      rw [f2] at g2
      simp only [Option.some.injEq] at g1 g2
      obtain ⟨m1, a1, a2⟩ := Ctx.findOp_mem f1
      obtain ⟨m2, b1, b2⟩ := Ctx.findOp_mem f2
      obtain ⟨x, hx, rfl⟩ := List.mem_iff_getElem.mp m1
      obtain ⟨y, hy, rfl⟩ := List.mem_iff_getElem.mp m2
      have ex : c.ops[x].2.id = x := by
        have : (c.ops.map (fun p => p.2.id))[x]? = (List.range c.ops.length)[x]? := by
          rw [h2]
        simpa [hx] using this
      have ey : c.ops[y].2.id = y := by
        have : (c.ops.map (fun p => p.2.id))[y]? = (List.range c.ops.length)[y]? := by
          rw [h2]
        simpa [hy] using this
      have : x = y := by omega
      subst this
      exact ⟨by rw [← a1, ← b1], by rw [← a2, ← b2]⟩

/-! ## C13: keywords -/

/-- **C13**, first direction (all histories): every keyword is the name of an
operator present. -/
theorem C13_keywords_are_names (os : List CtxOp) (hos : ∀ o ∈ os, Legal o) :
    ∃ c, run Ctx.create os = .ok c ∧
      ∀ s, (c.keywords.contains s).1 = true → ∃ o ∈ os.foldl specStep [], o.name = s := by
  have key : ∀ (os : List CtxOp) (c : Ctx) (sp : List Op), Sim c sp →
      (∀ o ∈ os, Legal o) → (∀ s, Trie.mem c.keywords.root s = true → ∃ o ∈ sp, o.name = s) →
      ∃ c', run c os = .ok c' ∧ ∀ s, Trie.mem c'.keywords.root s = true →
        ∃ o ∈ os.foldl specStep sp, o.name = s := by
    intro os
    induction os with
    | nil => intro c sp _ _ h; exact ⟨c, rfl, h⟩
    | cons o os ih =>
      intro c sp hs hl hk
      obtain ⟨c1, h1, h2⟩ := sim_step hs o (hl o List.mem_cons_self)
      suffices hb : ∀ s, Trie.mem c1.keywords.root s = true → ∃ o' ∈ specStep sp o, o'.name = s by
        obtain ⟨c2, h3, h4⟩ := ih c1 _ h2 (fun o' ho' => hl o' (List.mem_cons_of_mem _ ho')) hb
        exact ⟨c2, by simp [run, h1, h3], h4⟩
      · intro s hm
        cases o with
        | add op =>
          rcases hs.inv.addOp op (hl _ List.mem_cons_self) with ⟨g1, g⟩ | ⟨g1, g2, c', g, -, -, -, -, g6⟩
          · simp only [step, g, Res.bind_ok, Res.pure_eq, Res.ok.injEq] at h1
            subst h1
            rw [hs.taken, hs.clash] at g1
            have : (Taken sp op.name op.placement || Clash sp op) = true := by
              rcases g1 with h1 | h1 <;> simp [h1]
            simpa [specStep, this] using hk s hm
          · simp only [step, g, Res.bind_ok, Res.pure_eq, Res.ok.injEq] at h1
            subst h1
            have e1 : Taken sp op.name op.placement = false := by rw [← hs.taken, g1]; rfl
            have e2 : Clash sp op = false := by rw [← hs.clash, g2]
            simp only [specStep, e1, e2, Bool.or_false, Bool.false_eq_true, if_false]
            rw [g6, Bool.or_eq_true, decide_eq_true_eq] at hm
            rcases hm with rfl | hm
            · exact ⟨op, by simp, rfl⟩
            · obtain ⟨o, ho, hn⟩ := hk s hm
              exact ⟨o, by simp [ho], hn⟩
        | delete name pl =>
          rcases hs.inv.deleteOp name pl with ⟨g1, g⟩ | ⟨p, -, c', g, -, -, -, -, g6⟩
          · simp only [step, g, Res.bind_ok, Res.pure_eq, Res.ok.injEq] at h1
            subst h1
            obtain ⟨o, ho, hn⟩ := hk s hm
            refine ⟨o, ?_, hn⟩
            have e1 : Taken sp name pl = false := by rw [← hs.taken, g1]; rfl
            simp only [specStep, List.mem_filter]
            simp only [Taken, List.any_eq_false] at e1
            exact ⟨ho, by rw [Bool.eq_false_iff.mpr (e1 o ho)]; rfl⟩
          · simp only [step, g, Res.bind_ok, Res.pure_eq, Res.ok.injEq] at h1
            subst h1
            rw [g6, Bool.and_eq_true, decide_eq_true_eq] at hm
            obtain ⟨o, ho, hn⟩ := hk s hm.1
            refine ⟨o, ?_, hn⟩
            simp only [specStep, List.mem_filter]
            refine ⟨ho, ?_⟩
            have : ¬ o.name = name := by rw [hn]; exact hm.2
            simp [this]
  obtain ⟨c, h1, h2⟩ := key os Ctx.create [] sim_create hos (by
    intro s hs
    simp [Ctx.create, Trie.create] at hs)
  refine ⟨c, h1, fun s hs => h2 s ?_⟩
  rwa [(Trie.contains_spec _ _).1] at hs

/-- No deletion of the history removes an operator whose name is also used with
another placement at that time. -/
def NoSharedDelete : List Op → List CtxOp → Prop
  | _, [] => True
  | sp, .add op :: os => NoSharedDelete (specStep sp (.add op)) os
  | sp, .delete name pl :: os =>
    (Taken sp name pl = true → ∀ o ∈ sp, o.name = name → o.placement = pl) ∧
      NoSharedDelete (specStep sp (.delete name pl)) os

/-- **C13**, second direction (partial: histories in which no deleted operator
shares its name with one of another placement): every name of an operator
present is a keyword. -/
theorem C13_names_are_keywords_partial (os : List CtxOp) (hos : ∀ o ∈ os, Legal o)
    (hsh : NoSharedDelete [] os) :
    ∃ c, run Ctx.create os = .ok c ∧
      ∀ o ∈ os.foldl specStep [], (c.keywords.contains o.name).1 = true := by
  have key : ∀ (os : List CtxOp) (c : Ctx) (sp : List Op), Sim c sp →
      (∀ o ∈ os, Legal o) → NoSharedDelete sp os →
      (∀ o ∈ sp, Trie.mem c.keywords.root o.name = true) →
      ∃ c', run c os = .ok c' ∧ ∀ o ∈ os.foldl specStep sp,
        Trie.mem c'.keywords.root o.name = true := by
    intro os
    induction os with
    | nil => intro c sp _ _ _ h; exact ⟨c, rfl, h⟩
    | cons o os ih =>
      intro c sp hs hl hsh hk
      obtain ⟨c1, h1, h2⟩ := sim_step hs o (hl o List.mem_cons_self)
      have hl' := fun o' ho' => hl o' (List.mem_cons_of_mem _ ho')
      have fin : NoSharedDelete (specStep sp o) os →
          (∀ o' ∈ specStep sp o, Trie.mem c1.keywords.root o'.name = true) →
          ∃ c', run c (o :: os) = .ok c' ∧ ∀ o' ∈ os.foldl specStep (specStep sp o),
            Trie.mem c'.keywords.root o'.name = true := by
        intro ha hb
        obtain ⟨c2, h3, h4⟩ := ih c1 _ h2 hl' ha hb
        exact ⟨c2, by simp [run, h1, h3], h4⟩
      cases o with
      | add op =>
        refine fin hsh ?_
        intro o' ho'
        rcases hs.inv.addOp op (hl _ List.mem_cons_self) with ⟨g1, g⟩ | ⟨g1, g2, c', g, -, -, -, -, g6⟩
        · simp only [step, g, Res.bind_ok, Res.pure_eq, Res.ok.injEq] at h1
          subst h1
          rw [hs.taken, hs.clash] at g1
          have : (Taken sp op.name op.placement || Clash sp op) = true := by
            rcases g1 with h1 | h1 <;> simp [h1]
          simp only [specStep, this, if_true] at ho'
          exact hk o' ho'
        · simp only [step, g, Res.bind_ok, Res.pure_eq, Res.ok.injEq] at h1
          subst h1
          have e1 : Taken sp op.name op.placement = false := by rw [← hs.taken, g1]; rfl
          have e2 : Clash sp op = false := by rw [← hs.clash, g2]
          simp only [specStep, e1, e2, Bool.or_false, Bool.false_eq_true, if_false,
            List.mem_append, List.mem_singleton] at ho'
          rw [g6, Bool.or_eq_true, decide_eq_true_eq]
          rcases ho' with ho' | rfl
          · exact .inr (hk o' ho')
          · exact .inl rfl
      | delete name pl =>
        obtain ⟨hd, hsh'⟩ := hsh
        refine fin hsh' ?_
        intro o' ho'
        simp only [specStep, List.mem_filter] at ho'
        rcases hs.inv.deleteOp name pl with ⟨g1, g⟩ | ⟨p, g1, c', g, -, -, -, -, g6⟩
        · simp only [step, g, Res.bind_ok, Res.pure_eq, Res.ok.injEq] at h1
          subst h1
          exact hk o' ho'.1
        · simp only [step, g, Res.bind_ok, Res.pure_eq, Res.ok.injEq] at h1
          subst h1
          have e1 : Taken sp name pl = true := by rw [← hs.taken, g1]; rfl
          rw [g6, Bool.and_eq_true, decide_eq_true_eq]
          refine ⟨hk o' ho'.1, fun hn => ?_⟩
          have := hd e1 o' ho'.1 hn
          simp [hn, this] at ho'
  obtain ⟨c, h1, h2⟩ := key os Ctx.create [] sim_create hos hsh (by simp)
  refine ⟨c, h1, fun o ho => ?_⟩
  rw [(Trie.contains_spec _ _).1]
  exact h2 o ho

def sharedHistory : List CtxOp :=
  [.add (Op.getPrefix "-".toList 7), .add (Op.getInfix "-".toList 2 .left),
   .delete "-".toList .prefix]

/-- **C13**, negation of the full statement: after deleting the prefix operator
`-` the infix operator `-` is still there, but `-` is no keyword any more. -/
theorem C13_shared_name_witness :
    ∃ c, run Ctx.create sharedHistory = .ok c ∧
      (∃ p, c.lookup "-".toList .infix = .ok (some p)) ∧
      (c.keywords.contains "-".toList).1 = false := by
  have hkey : (match run Ctx.create sharedHistory with
    | .ok c => (match c.lookup "-".toList .infix with
      | .ok (some _) => true
      | _ => false) && !(c.keywords.contains "-".toList).1
    | _ => false) = true := by decide +kernel
  cases hr : run Ctx.create sharedHistory with
  | defect => rw [hr] at hkey; cases hkey
  | ub => rw [hr] at hkey; cases hkey
  | ok c =>
    rw [hr] at hkey
    simp only [Bool.and_eq_true] at hkey
    refine ⟨c, rfl, ?_, by simpa using hkey.2⟩
    have h := hkey.1
    split at h
    · rename_i p hp; exact ⟨p, hp⟩
    · cases h

/-! ## Non-vacuity -/

example : StackLike [] [.add (fn "f"), .add (fn "g"), .add (fn "h"),
    .deletes [("g".toList, .function), ("h".toList, .function)], .add (fn "k")] := by
  simp only [StackLike, and_true]
  decide +kernel

example : NoSharedDelete [] [.add (fn "f"), .add (Op.getInfix "+".toList 2 .left),
    .delete "f".toList .function, .add (fn "f")] := by
  simp only [NoSharedDelete, and_true]
  decide +kernel

example : ∀ o ∈ clashHistory, Legal o := by
  simp only [clashHistory, List.forall_mem_cons, List.not_mem_nil, false_imp_iff,
    implies_true, and_true, Legal]
  decide

end Verif.CtxProps
