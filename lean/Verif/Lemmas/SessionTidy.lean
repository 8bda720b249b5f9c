import Verif.Lemmas.Session

/-!
# Sessions in which all function bodies are free of user functions
-/

namespace Verif
open ParserProps
variable {V ε ρ : Type}

/-- Expanding, whatever the fuel, as long as the cap is out of reach. -/
theorem expand_ok {D : List (FunDef V)} {rules : List (RewriteRule V)} (h : Table D)
    (hr : List.Forall₂ IsDef rules D) (eqV : V → V → Bool) (checker : Tree V → Bool) (cap : Nat) :
    ∀ (fuel counter : Nat) (t u : Tree V) (n : Nat), AllOps (Known D) t → counter + fuel < cap →
      applyLoop eqV checker rules cap fuel counter t = .ok (some (u, n)) →
      u = expandD D t ∧ AllOps BuiltIn u := by
  intro fuel
  induction fuel with
  | zero => intro counter t u n _ _ h1; cases h1
  | succ fuel ih =>
    intro counter t u n ht hc h1
    rcases expand_step h hr eqV checker t ht with ⟨h3, h4⟩ | ⟨t', h3, h4, h5, h6⟩
    · simp only [applyLoop, h3, Res.bind_ok, Res.pure_eq, Res.ok.injEq, Option.some.injEq, Prod.mk.injEq] at h1
      obtain ⟨rfl, -⟩ := h1
      exact ⟨(expandD_id h t h4).symm, h4⟩
    · simp only [applyLoop, h3, Res.bind_ok] at h1
      rw [if_neg (by omega)] at h1
      rw [h4]
      exact ih (counter + 1) t' u n h6 (by omega) h1

/-! ## Operators and variables of parsed expressions -/

theorem builtin_ids : ∀ p ∈ builtin, p.2.id < 58 := by decide +kernel

theorem builtin_mem {p : Nat × Op} (h : p ∈ builtin) {n : Nat} (ha : p.2.arity = .dyn ∨ p.2.arity = .fixed n) :
    BuiltIn p.2 n := by
  refine ⟨?_, ha⟩
  unfold builtin at h
  obtain ⟨⟨q, k⟩, hq, rfl⟩ := List.mem_map.1 h
  exact ⟨q, by simpa using List.mem_zipIdx_iff_getElem?.1 hq, rfl⟩

theorem mulOp_builtin {n : Nat} (ha : mulOp.arity = .dyn ∨ mulOp.arity = .fixed n) : BuiltIn mulOp n :=
  builtin_mem (p := (6, mulOp)) (by decide +kernel) ha

/-- The operators of a parsed expression. -/
theorem parse_known {c : Ctx} {D : List (FunDef V)} (h : Holds c (D.map (·.op)))
    (har : ∀ d ∈ D, d.op.arity = .fixed d.params.length) {strtod : Str → Option V} {s : Str} {t : Tree V}
    (hp : parseEasy c strtod s = .ok (some t)) : AllOps (Known D) t := by
  rw [parseEasy_ok] at hp
  have h1 := C16_arity _ _ _ _ hp
  have h2 := C16_operators_known _ _ _ _ hp
  clear hp
  induction t using Tree.induct with
  | hc v i => exact .const
  | hv n x i => exact .var
  | ho o cs i ih =>
    cases h1 with
    | op _ _ _ a1 a2 =>
    cases h2 with
    | op _ _ _ b1 b2 =>
    refine .op ?_ fun c hc => ih c hc (a2 c hc) (b2 c hc)
    rcases b1 with ⟨n, pl, hl⟩ | hg
    · rw [h.env] at hl
      have hm := List.mem_of_find?_eq_some hl
      rcases List.mem_append.mp hm with hm | hm
      · obtain ⟨p, hp, rfl⟩ := List.mem_map.mp hm
        exact .inl (builtin_mem hp a1)
      · obtain ⟨d, hd, rfl⟩ := List.mem_map.mp hm
        right
        refine ⟨d, hd, rfl, ?_⟩
        rw [har d hd] at a1
        rcases a1 with a1 | a1
        · cases a1
        · simpa using a1
    · rw [h.env] at hg
      cases hg
      exact .inl (mulOp_builtin a1)

/-- The variables of a parsed expression are tokens. -/
theorem parse_vars {E : Env} {strtod : Str → Option V} {tokens : List Str} {t : Tree V}
    (h : parseTokens E strtod tokens = .ok t) : ∀ n ∈ t.names, n ∈ tokens := by
  refine parseIdx_good (Q := fun t => ∀ n ∈ t.names, n ∈ tokens) (D := fun _ => True) ?_ h
  refine ⟨?_, ?_, ?_, ?_, ?_, ?_, ?_⟩
  · intros; simp_all [Tree.names]
  · intro i tok hm _ _ _ _ _ _ n hn
    simp only [Tree.names, List.mem_singleton] at hn
    subst hn
    exact List.mem_of_getElem? ((mem_number0 _ _ _).mp hm)
  · intros; trivial
  · intros; trivial
  · intros; trivial
  · intros; trivial
  · intro o d cs _ _ ha _ hc n hn
    simp only [Tree.names] at hn
    obtain ⟨c, hc', hn⟩ := namesList_mem.1 hn
    exact hc c hc' n hn

theorem parse_vars_text {c : Ctx} {us : List Op} (h : Holds c us) {strtod : Str → Option V} {s : Str} {t : Tree V}
    (hp : parseEasy c strtod s = .ok (some t)) : ∀ n ∈ t.names, ∀ a ∈ n, a ∈ s := by
  rw [parseEasy_ok] at hp
  intro n hn a ha
  have h1 := parse_vars hp n hn
  have h2 := (C07_calculator c h.like s).1
  rw [← h2]
  exact List.mem_flatten.mpr ⟨n, h1, ha⟩

/-! ## Trees and numbers of variables -/

theorem AllOps.withIds {P : Op → Nat → Prop} (f : Str → Nat) (t : Tree V) :
    AllOps P (t.withIds f) ↔ AllOps P t := by
  induction t using Tree.induct with
  | hc v i => exact ⟨fun _ => .const, fun _ => .const⟩
  | hv n x i => exact ⟨fun _ => .var, fun _ => .var⟩
  | ho o cs i ih =>
    have e : Tree.withIdsList f cs = cs.map (Tree.withIds f) := by
      clear ih
      induction cs with
      | nil => rfl
      | cons c cs ih => simp [Tree.withIdsList, ih]
    simp only [Tree.withIds, e]
    constructor
    · intro h
      obtain ⟨h1, h2⟩ := h.child
      exact .op (by simpa using h1) fun c hc => (ih c hc).1 (h2 _ (List.mem_map_of_mem hc))
    · intro h
      obtain ⟨h1, h2⟩ := h.child
      refine .op (by simpa using h1) fun c hc => ?_
      obtain ⟨b, hb, rfl⟩ := List.mem_map.mp hc
      exact (ih b hb).2 (h2 b hb)

theorem names_withIds (f : Str → Nat) (t : Tree V) : (t.withIds f).names = t.names := by
  refine Tree.rec (motive_1 := fun t => (t.withIds f).names = t.names)
    (motive_2 := fun l => Tree.namesList (Tree.withIdsList f l) = Tree.namesList l) ?_ ?_ ?_ ?_ ?_ t
  · intros; rfl
  · intros; rfl
  · intro o cs i ih; simpa [Tree.withIds, Tree.names] using ih
  · rfl
  · intro c cs h1 h2; simp [Tree.withIdsList, Tree.namesList, h1, h2]

/-- The parameters can be read off a rule. -/
theorem IsDef.params {r : RewriteRule V} {d : FunDef V} (h : IsDef r d) : r.pattern.tree.names = d.params := by
  obtain ⟨cs, tok, h1, h2⟩ := h.accepted
  obtain ⟨h3, -⟩ := h2.spec
  have hn : (Tree.op d.op cs tok).names = d.params := by simp only [Tree.names, names_vars h1]
  have := (getPattern_spec h3).tree
  rw [this, names_withIds, hn]

theorem IsDef.bodyOps {r : RewriteRule V} {d : FunDef V} (h : IsDef r d) (P : Op → Nat → Prop) :
    AllOps P r.after ↔ AllOps P d.body := by
  obtain ⟨-, -, h3, -⟩ := h.shape
  rw [h3, AllOps.withIds]

/-! ## The invariant -/

/-- No two operators share a number, no parameter has the name of a list, all bodies
are free of user functions. -/
structure Tidy (s : Session V ρ) : Prop where
  ids : (s.ctx.ops.map (·.2.id)).Nodup
  plain : ∀ r ∈ s.funs, ∀ n ∈ r.pattern.tree.names, ¬ ListName n
  bodies : ∀ r ∈ s.funs, AllOps BuiltIn r.after

theorem forall2_right {α β : Type} {R : α → β → Prop} {as : List α} {bs : List β} (h : List.Forall₂ R as bs)
    {b : β} (hb : b ∈ bs) : ∃ a ∈ as, R a b := by
  induction h with
  | nil => cases hb
  | cons h1 _ ih =>
    rcases List.mem_cons.mp hb with rfl | hb
    · exact ⟨_, by simp, h1⟩
    · obtain ⟨a, ha, hab⟩ := ih hb
      exact ⟨a, by simp [ha], hab⟩

theorem forall2_left {α β : Type} {R : α → β → Prop} {as : List α} {bs : List β} (h : List.Forall₂ R as bs)
    {a : α} (ha : a ∈ as) : ∃ b ∈ bs, R a b := by
  induction h with
  | nil => cases ha
  | cons h1 _ ih =>
    rcases List.mem_cons.mp ha with rfl | ha
    · exact ⟨_, by simp, h1⟩
    · obtain ⟨b, hb, hab⟩ := ih ha
      exact ⟨b, by simp [hb], hab⟩

theorem Holds.ids {c : Ctx} {us : List Op} (h : Holds c us) :
    c.ops.map (·.2.id) = (builtin.map (·.2) ++ us).map (·.id) := by
  rw [← h.snd, List.map_map]
  rfl

theorem Sess.table {s : Session V ρ} {D : List (FunDef V)} (h : Sess s D) (ht : Tidy s) : Table D := by
  refine ⟨?_, h.ids, ?_, ?_, ?_⟩
  · have h1 := ht.ids
    rw [h.ctx.ids, List.map_append, List.nodup_append] at h1
    have := h1.2.1
    rwa [List.map_map] at this
  · intro d hd
    obtain ⟨r, hr, hrd⟩ := forall2_right h.rules hd
    exact (hrd.bodyOps _).1 (ht.bodies r hr)
  · intro d hd
    obtain ⟨r, hr, hrd⟩ := forall2_right h.rules hd
    exact hrd.shape.2.1
  · intro d hd
    obtain ⟨r, hr, hrd⟩ := forall2_right h.rules hd
    intro n hn
    exact ht.plain r hr n (hrd.params ▸ hn)

/-- `simplify` adds no user functions. -/
def SimpKeeps (K : Client V ε ρ) : Prop :=
  ∀ w h t w' u, AllOps BuiltIn t → K.simp w h t = .ok (w', .ok u) →
    AllOps BuiltIn u

theorem arithSimplify_ops {K : Client V ε ρ} (hK : SimpKeeps K) (hf : K.fuel < sizeMax) {s : Session V ρ}
    {D : List (FunDef V)} (h : Sess s D) (ht : Tidy s) {t u : Tree V} {w w' : ρ} {hist : List V}
    (hk : AllOps (Known D) t) (he : arithSimplify K s.funs hist w t = .ok (w', some u)) :
    AllOps BuiltIn u := by
  unfold arithSimplify at he
  obtain ⟨⟨t', n⟩, h1, he⟩ := Out.bind_eq_ok.1 he
  obtain ⟨⟨w2, r⟩, h2, he⟩ := Out.bind_eq_ok.1 he
  have h1' : applyRuleset K.eqV (fun _ => true) s.funs sizeMax K.fuel t = .ok (some (t', n)) := by
    revert h1
    cases applyRuleset K.eqV (fun _ => true) s.funs sizeMax K.fuel t with
    | ok x => cases x <;> simp [Out.ofFuel]
    | defect => simp [Out.ofFuel]
    | ub => simp [Out.ofFuel]
  obtain ⟨-, h3⟩ := expand_ok (h.table ht) h.rules _ _ sizeMax K.fuel 0 t t' n hk (by omega) h1'
  cases r with
  | error e => simp at he
  | ok v =>
    simp only [Out.pure_eq, Out.ok.injEq, Prod.mk.injEq, Option.some.injEq] at he
    obtain ⟨rfl, rfl⟩ := he
    exact hK _ _ _ _ _ h3 h2

theorem findOpNode_none {id : Nat} {t : Tree V} (h : findOpNode id t [] = none) :
    AllOps (fun o _ => o.id ≠ id) t := by
  have aux : ∀ (t : Tree V) p, findOpNode id t p = none → AllOps (fun o _ => o.id ≠ id) t := by
    intro t
    refine Tree.rec (motive_1 := fun t => ∀ p, findOpNode id t p = none → AllOps (fun o _ => o.id ≠ id) t)
      (motive_2 := fun l => ∀ p k, findOpNodes id l p k = none → ∀ c ∈ l, AllOps (fun o _ => o.id ≠ id) c)
      ?_ ?_ ?_ ?_ ?_ t
    · intros; exact .const
    · intros; exact .var
    · intro o cs i ih p h
      simp only [findOpNode] at h
      split at h
      · cases h
      · rename_i ho
        exact .op ho (ih p 0 h)
    · intro p k _ c hc; cases hc
    · intro c cs h1 h2 p k h b hb
      simp only [findOpNodes] at h
      split at h
      · cases h
      · rename_i hc
        rcases List.mem_cons.mp hb with rfl | hb
        · exact h1 _ hc
        · exact h2 _ _ h b hb
  exact aux t [] h

theorem AllOps.and {P Q : Op → Nat → Prop} {t : Tree V} (hp : AllOps P t) (hq : AllOps Q t) :
    AllOps (fun o n => P o n ∧ Q o n) t := by
  induction t using Tree.induct with
  | hc v i => exact .const
  | hv n x i => exact .var
  | ho o cs i ih =>
    obtain ⟨h1, h2⟩ := hp.child
    obtain ⟨h3, h4⟩ := hq.child
    exact .op ⟨h1, h3⟩ fun c hc => ih c hc (h2 c hc) (h4 c hc)

/-- Numbers of new operators are not in use. -/
def FreshId (s : Session V ρ) : Prop := ∀ p ∈ s.ctx.ops, p.2.id < s.ctx.ops.length

theorem Tidy.define {K : Client V ε ρ} (hK : SimpKeeps K) (hf : K.fuel < sizeMax) {s s' : Session V ρ}
    {D : List (FunDef V)} {d : FunDef V} (h : Sess s D) (ht : Tidy s) {input : Str} (hfr : FreshId s)
    (hb : '[' ∉ input) (h' : Sess s' (D ++ [d])) (hd : DefinedBy K s s' D input d)
    {rule : RewriteRule V} (hfuns : s'.funs = s.funs ++ [rule]) : Tidy s' := by
  have hrd : IsDef rule d := by
    have := h'.rules
    rw [hfuns] at this
    obtain ⟨e, he, hre⟩ := forall2_left this (a := rule) (by simp)
    have := (List.forall₂_iff_get.mp this).2 s.funs.length (by simp) (by simp [h.rules.length_eq])
    simpa [h.rules.length_eq] using this
  obtain ⟨k, -, -, ⟨c, o, q, cs, i, hc, -, -, -, hp, hv⟩, rt, hrt, hno, hsimp⟩ := hd.text
  refine ⟨?_, ?_, ?_⟩
  · have h1 := ht.ids
    rw [h.ctx.ids] at h1
    rw [h'.ctx.ids, List.map_append (f := fun d : FunDef V => d.op), ← List.append_assoc, List.map_append (l₂ := [d].map _),
      List.nodup_append]
    refine ⟨h1, by simp, ?_⟩
    intro a ha b hb
    simp only [List.map_cons, List.map_nil, List.mem_singleton] at hb
    subst hb
    rw [← h.ctx.snd] at ha
    obtain ⟨x, hx, rfl⟩ := List.mem_map.mp ha
    obtain ⟨p, hp, rfl⟩ := List.mem_map.mp hx
    have := hfr p hp
    rw [h.ctx.length, List.length_map] at this
    rw [hd.id]
    omega
  · intro r hr
    rw [hfuns] at hr
    rcases List.mem_append.mp hr with hr | hr
    · exact ht.plain r hr
    · simp only [List.mem_singleton] at hr
      subst hr
      rw [hrd.params]
      intro n hn hl
      have hmem : n ∈ (Tree.op q cs i).names := by
        simp only [Tree.names, names_vars hv]; exact hn
      refine hb (List.mem_of_mem_take (i := k) (parse_vars_text hc hp n hmem '[' ?_))
      cases n with
      | nil => cases hl
      | cons a n =>
        simp only [ListName, List.head?_cons, Option.some.injEq] at hl
        simp [hl]
  · intro r hr
    rw [hfuns] at hr
    rcases List.mem_append.mp hr with hr | hr
    · exact ht.bodies r hr
    · simp only [List.mem_singleton] at hr
      subst hr
      rw [hrd.bodyOps]
      have hk := parse_known h'.ctx h'.arity hrt
      have hk2 : AllOps (Known D) rt := by
        refine (hk.and (findOpNode_none hno)).mono ?_
        rintro o n ⟨h1, h2⟩
        rcases h1 with h1 | ⟨e, he, rfl, hl⟩
        · exact .inl h1
        · rcases List.mem_append.mp he with he | he
          · exact .inr ⟨e, he, rfl, hl⟩
          · simp only [List.mem_singleton] at he
            subst he
            exact absurd rfl h2
      exact arithSimplify_ops hK hf h ht hk2 hsimp

end Verif
