import Verif.Spec.OperatorMemory
import Verif.Lemmas.SimplifyInv
import Verif.Lemmas.SimplifySafe
import Verif.Lemmas.SessionTidy
import Verif.Lemmas.SimpInit

/-!
# Operators of trees that stay

Bodies of functions are free of user functions, also when operators share a number.
-/

namespace Verif
open ParserProps TreeProps MatchProps RewriteProps OperatorSpec
variable {V ε ρ : Type}

/-- What is known of the nodes is known of the operators. -/
theorem ops_of_nodes {P : Op → Nat → Prop} (t : Tree V) : ∀ p,
    (∀ q o cs i, (q, Tree.op o cs i) ∈ t.preorder p → P o cs.length) → Verif.AllOps P t := by
  refine Tree.rec
    (motive_1 := fun t => ∀ p, (∀ q o cs i, (q, Tree.op o cs i) ∈ t.preorder p → P o cs.length) → Verif.AllOps P t)
    (motive_2 := fun l => ∀ p k, (∀ q o cs i, (q, Tree.op o cs i) ∈ Tree.preorders p k l → P o cs.length) →
      ∀ c ∈ l, Verif.AllOps P c) ?_ ?_ ?_ ?_ ?_ t
  · intros; exact .const
  · intros; exact .var
  · intro o cs i ih p h
    refine .op (h p o cs i (by simp [Tree.preorder])) (ih p 0 fun q o' cs' i' hq => h q o' cs' i' ?_)
    simp [Tree.preorder, hq]
  · intro p k _ c hc; cases hc
  · intro c cs h1 h2 p k h b hb
    rcases List.mem_cons.1 hb with rfl | hb
    · exact h1 (p ++ [k]) fun q o cs' i hq => h q o cs' i (by simp [Tree.preorders, hq])
    · exact h2 p (k + 1) (fun q o cs' i hq => h q o cs' i (by simp [Tree.preorders, hq])) b hb

theorem nodes_of_ops {P : Op → Nat → Prop} {t : Tree V} (h : Verif.AllOps P t) : ∀ p q o cs i,
    (q, Tree.op o cs i) ∈ t.preorder p → P o cs.length := by
  revert h
  refine Tree.rec
    (motive_1 := fun t => Verif.AllOps P t → ∀ p q o cs i, (q, Tree.op o cs i) ∈ t.preorder p → P o cs.length)
    (motive_2 := fun l => (∀ c ∈ l, Verif.AllOps P c) → ∀ p k q o cs i,
      (q, Tree.op o cs i) ∈ Tree.preorders p k l → P o cs.length) ?_ ?_ ?_ ?_ ?_ t
  · intro v i _ p q o cs j h; simp [Tree.preorder] at h
  · intro n x i _ p q o cs j h; simp [Tree.preorder] at h
  · intro o cs i ih h p q o' cs' j hq
    obtain ⟨g1, g2⟩ := AllOps.child h
    simp only [Tree.preorder, List.mem_cons, Prod.mk.injEq, Tree.op.injEq] at hq
    rcases hq with ⟨-, rfl, rfl, -⟩ | hq
    · exact g1
    · exact ih g2 p 0 q o' cs' j hq
  · intro _ p k q o cs i h; simp [Tree.preorders] at h
  · intro c cs h1 h2 h p k q o cs' i hq
    simp only [Tree.preorders, List.mem_append] at hq
    rcases hq with hq | hq
    · exact h1 (h c (by simp)) _ _ _ _ _ hq
    · exact h2 (fun b hb => h b (by simp [hb])) _ _ _ _ _ _ hq

/-- Definitions whose bodies have no user functions, and whose parameters are no lists. -/
def Settled (D : List (FunDef V)) : Prop :=
  ∀ d ∈ D, Verif.AllOps BuiltIn d.body ∧ ∀ n ∈ d.params, ¬ ListName n

theorem built_of {O : Op → Nat → Prop} {t : Tree V} (h : Verif.AllOps O t) (hn : ∀ n ∈ t.names, ¬ ListName n) :
    Built O t := by
  induction t using Tree.induct with
  | hc v i => exact .const
  | hv n x i => exact .var
  | ho o cs i ih =>
    obtain ⟨h1, h2⟩ := AllOps.child h
    have hs : ∀ c ∈ cs, ∀ n ∈ c.names, ¬ ListName n := by
      intro c hc n hn'
      refine hn n ?_
      rw [Tree.names]
      exact namesList_mem.2 ⟨c, hc, hn'⟩
    refine .op (.inr ⟨h1, ?_⟩) fun c hc => ih c hc (h2 c hc) (hs c hc)
    rintro c hc n x j rfl
    exact hs _ hc n (by simp [Tree.names])

theorem IsDef.good {D : List (FunDef V)} {r : RewriteRule V} {d : FunDef V} (h : IsDef r d)
    (hb : Verif.AllOps BuiltIn d.body) (hp : ∀ n ∈ d.params, ¬ ListName n) : GoodRule (Known D) r := by
  obtain ⟨-, h2, -⟩ := h.shape
  obtain ⟨cs, tok, h3, h4⟩ := h.accepted
  refine ⟨_, _, _, h4, built_of (hb.mono fun o n h => .inl h) fun n hn => hp n (h2 n hn), ?_⟩
  intro n x i e
  cases e

theorem within_any {O : Op → Nat → Prop} {t : Tree V} (h : Verif.AllOps O t) :
    Within O (fun _ _ => True) (fun _ => True) t := by
  induction h with
  | const => exact .const trivial
  | var => exact .var trivial
  | op h1 _ ih => exact .op h1 trivial ih

/-- The loop of `apply_ruleset` ends where no rule can be applied, and keeps to the operators allowed. -/
theorem loop_settled {O : Op → Nat → Prop} {rules : List (RewriteRule V)} (hr : ∀ r ∈ rules, GoodRule O r)
    {eqV : V → V → Bool} {checker : Tree V → Bool} {cap : Nat} : ∀ (fuel counter : Nat) (t u : Tree V) (n : Nat),
    Verif.AllOps O t → counter + fuel < cap → applyLoop eqV checker rules cap fuel counter t = .ok (some (u, n)) →
    Verif.AllOps O u ∧ ∀ r ∈ rules, applyRule eqV checker r u = .ok none := by
  intro fuel
  induction fuel with
  | zero => intro counter t u n _ _ h; cases h
  | succ fuel ih =>
    intro counter t u n ht hc h
    simp only [applyLoop] at h
    obtain ⟨x, hx, h⟩ := Res.bind_eq_ok.1 h
    cases x with
    | none =>
      cases h
      exact ⟨ht, applyFirst_none hx⟩
    | some t' =>
      simp only at h
      rw [if_neg (by omega)] at h
      exact ih _ _ _ _ (GoodRule.first hr hx (within_any ht)).ops (by omega) h

/-- After expansion no user function is left, whatever the numbers of the operators. -/
theorem expand_settled {D : List (FunDef V)} {rules : List (RewriteRule V)} (hD : Settled D)
    (hr : List.Forall₂ IsDef rules D) {eqV : V → V → Bool} {checker : Tree V → Bool} {cap fuel : Nat} {t u : Tree V}
    {n : Nat} (ht : Verif.AllOps (Known D) t) (hf : fuel < cap)
    (h : applyRuleset eqV checker rules cap fuel t = .ok (some (u, n))) : Verif.AllOps BuiltIn u := by
  have hg : ∀ r ∈ rules, GoodRule (Known D) r := by
    intro r hr'
    obtain ⟨d, hd, hrd⟩ := forall2_left hr hr'
    exact hrd.good (hD d hd).1 (hD d hd).2
  obtain ⟨h1, h2⟩ := loop_settled hg fuel 0 t u n ht (by omega) h
  refine ops_of_nodes u [] fun q o cs i hq => ?_
  rcases nodes_of_ops h1 [] q o cs i hq with hb | ⟨d, hd, rfl, hl⟩
  · exact hb
  · obtain ⟨r, hr', hrd⟩ := forall2_right hr hd
    have h3 := C29_not_applied eqV checker r u (h2 r hr') _ hq
    obtain ⟨g1, -, -, ps, tok, g2, g3, g4⟩ := hrd.shape
    rw [g2, match_call (g4 (hD d hd).2) (by omega)] at h3
    simp [g3, hl] at h3

theorem arithSimplify_settled {K : Client V ε ρ} (hK : SimpKeeps K) (hf : K.fuel < sizeMax) {D : List (FunDef V)}
    {funs : List (RewriteRule V)} (hD : Settled D) (hr : List.Forall₂ IsDef funs D) {t u : Tree V} {w w' : ρ}
    {hist : List V} (hk : Verif.AllOps (Known D) t) (he : arithSimplify K funs hist w t = .ok (w', some u)) :
    Verif.AllOps BuiltIn u := by
  unfold arithSimplify at he
  obtain ⟨⟨t', n⟩, h1, he⟩ := Out.bind_eq_ok.1 he
  obtain ⟨⟨w2, r⟩, h2, he⟩ := Out.bind_eq_ok.1 he
  have h3 := expand_settled hD hr hk hf (Out.ofFuel_ok h1)
  cases r with
  | error e => simp at he
  | ok v =>
    simp only [Out.pure_eq, Out.ok.injEq, Prod.mk.injEq, Option.some.injEq] at he
    obtain ⟨rfl, rfl⟩ := he
    exact hK _ _ _ _ _ h3 h2

theorem Settled.define {K : Client V ε ρ} (hK : SimpKeeps K) (hf : K.fuel < sizeMax) {s s' : Session V ρ}
    {D : List (FunDef V)} {d : FunDef V} (h : Sess s D) (ht : Settled D) {input : Str}
    (hb : '[' ∉ input) (h' : Sess s' (D ++ [d])) (hd : DefinedBy K s s' D input d) : Settled (D ++ [d]) := by
  obtain ⟨k, -, -, ⟨c, o, q, cs, i, hc, -, -, -, hp, hv⟩, rt, hrt, hno, hsimp⟩ := hd.text
  intro e he
  rcases List.mem_append.1 he with he | he
  · exact ht e he
  · simp only [List.mem_singleton] at he
    subst he
    constructor
    · have hk := parse_known h'.ctx h'.arity hrt
      have hk2 : Verif.AllOps (Known D) rt := by
        refine (hk.and (findOpNode_none hno)).mono ?_
        rintro o n ⟨h1, h2⟩
        rcases h1 with h1 | ⟨e', he, rfl, hl⟩
        · exact .inl h1
        · rcases List.mem_append.mp he with he | he
          · exact .inr ⟨e', he, rfl, hl⟩
          · simp only [List.mem_singleton] at he
            subst he
            exact absurd rfl h2
      exact arithSimplify_settled hK hf ht h.rules hk2 hsimp
    · intro n hn hl
      have hmem : n ∈ (Tree.op q cs i).names := by
        simp only [Tree.names, names_vars hv]; exact hn
      refine hb (List.mem_of_mem_take (i := k) (parse_vars_text hc hp n hmem '[' ?_))
      cases n with
      | nil => cases hl
      | cons a n =>
        simp only [ListName, List.head?_cons, Option.some.injEq] at hl
        simp [hl]

/-- Built-in operators are never freed. -/
theorem BuiltIn.alive {c : Ctx} {us : List Op} (h : Holds c us) {o : Op} {n : Nat} (ho : BuiltIn o n) : Alive c o := by
  obtain ⟨⟨q, h1, h2⟩, -⟩ := ho
  obtain ⟨as, -, h3⟩ := h.ops
  have : ∀ (k : Nat) (q : Op), arithOps[k]? = some q → ∃ a, (a, ({ q with id := k } : Op)) ∈ builtin := by
    intro k q hq
    refine ⟨k, ?_⟩
    unfold builtin
    exact List.mem_map.2 ⟨(q, k), List.mem_zipIdx_iff_getElem?.2 hq, rfl⟩
  obtain ⟨a, ha⟩ := this _ _ h1
  rw [← h2] at ha
  exact ⟨a, by rw [h3]; exact List.mem_append_left _ ha⟩

theorem Holds.alive {c : Ctx} {us : List Op} (h : Holds c us) {u : Op} (hu : u ∈ us) : Alive c u := by
  have : u ∈ c.ops.map (·.2) := by
    rw [h.snd]
    exact List.mem_append_right _ hu
  obtain ⟨⟨a, o⟩, h1, rfl⟩ := List.mem_map.1 this
  exact ⟨a, h1⟩

theorem Known.alive {c : Ctx} {D : List (FunDef V)} (h : Holds c (D.map (·.op))) {o : Op} {n : Nat}
    (ho : Known D o n) : Alive c o := by
  rcases ho with ho | ⟨d, hd, rfl, -⟩
  · exact ho.alive h
  · exact h.alive (List.mem_map_of_mem hd)

end Verif
