import Verif.Spec.Simplify
import Verif.Model.Simplify
import Verif.Props.Simplification
import Verif.Lemmas.Session

/-!
# What all steps of the simplification preserve
-/

namespace Verif
open TreeProps MatchProps RewriteProps
variable {V ε : Type} {O : Op → Nat → Prop} {N : Str → Nat → Prop} {T : Nat → Prop}

namespace Within

theorem child {o : Op} {cs : List (Tree V)} {i : Nat} (h : Within O N T (.op o cs i)) :
    ∀ c ∈ cs, Within O N T c := by
  cases h; assumption

theorem mono {O' : Op → Nat → Prop} {N' : Str → Nat → Prop} {T' : Nat → Prop} (hO : ∀ o n, O o n → O' o n)
    (hN : ∀ n x, N n x → N' n x) (hT : ∀ i, T i → T' i) {t : Tree V} (h : Within O N T t) :
    Within O' N' T' t := by
  induction h with
  | const h => exact .const (hT _ h)
  | var h => exact .var (hN _ _ h)
  | op h1 h2 _ ih => exact .op (hO _ _ h1) (hT _ h2) ih

/-- Two such facts at once. -/
theorem and {O' : Op → Nat → Prop} {N' : Str → Nat → Prop} {T' : Nat → Prop} {t : Tree V} (h : Within O N T t)
    (h' : Within O' N' T' t) :
    Within (fun o n => O o n ∧ O' o n) (fun n x => N n x ∧ N' n x) (fun i => T i ∧ T' i) t := by
  induction h with
  | const h => cases h' with | const h' => exact .const ⟨h, h'⟩
  | var h => cases h' with | var h' => exact .var ⟨h, h'⟩
  | op h1 h2 _ ih => cases h' with | op h3 h4 h5 => exact .op ⟨h1, h3⟩ ⟨h2, h4⟩ fun c hc => ih c hc (h5 c hc)

theorem deref {t : Tree V} (h : Within O N T t) {p : Path} {s : Tree V} (hd : t.deref p = some s) :
    Within O N T s := by
  induction p generalizing t with
  | nil => cases t <;> (simp only [Tree.deref, Option.some.injEq] at hd; subst hd; exact h)
  | cons k p ih =>
    cases t with
    | const => cases hd
    | var => cases hd
    | op o cs i =>
      simp only [Tree.deref] at hd
      split at hd
      · rename_i c hc
        exact ih (h.child c (List.mem_of_getElem? hc)) hd
      · cases hd

theorem sub {u s w u' : Tree V} {p : List Nat} (h : Replaced u p s w u') : Within O N T u → Within O N T s := by
  induction h with
  | here => exact fun h => h
  | child _ ih => exact fun h => ih (h.child _ (by simp))

theorem replaced {u s w u' : Tree V} {p : List Nat} (h : Replaced u p s w u') (hw : Within O N T w) :
    Within O N T u → Within O N T u' := by
  induction h with
  | here => exact fun _ => hw
  | child _ ih =>
    intro h
    cases h with
    | op h1 h2 h3 =>
      refine .op (by simpa using h1) h2 fun c hc => ?_
      rcases List.mem_append.1 hc with hc | hc
      · exact h3 c (by simp [hc])
      · rcases List.mem_cons.1 hc with rfl | hc
        · exact ih hw (h3 _ (by simp))
        · exact h3 c (by simp [hc])

end Within

/-- Whatever lists are put for the variables, operators get the right number of operands. -/
inductive Built (O : Op → Nat → Prop) : Tree V → Prop where
  | const {v i} : Built O (.const v i)
  | var {n x i} : Built O (.var n x i)
  | op {o cs i} : ((∀ n, O o n) ∨ (O o cs.length ∧ ∀ c ∈ cs, ∀ n x j, c = .var n x j → ¬ ListName n)) →
      (∀ c ∈ cs, Built O c) → Built O (.op o cs i)

theorem Built.mono {O' : Op → Nat → Prop} (hO : ∀ o n, O o n → O' o n) {t : Tree V} (h : Built O t) : Built O' t := by
  induction h with
  | const => exact .const
  | var => exact .var
  | op h _ ih =>
    refine .op ?_ ih
    rcases h with h | ⟨h, h'⟩
    · exact .inl fun n => hO _ _ (h n)
    · exact .inr ⟨hO _ _ h, h'⟩

namespace Within

/-- Instances of an expression whose operators are all right. -/
theorem inst {σ : Str → Option (List (Tree V))} {g : Nat → Nat} (hg : ∀ i, T (g i)) (t : Tree V)
    (ht : Built O t) (hσ : ∀ n ∈ t.names, ∀ l, σ n = some l → ∀ c ∈ l, Within O N T c)
    (h1 : ∀ n ∈ t.names, ¬ ListName n → ∃ x, σ n = some [x])
    {l : List (Tree V)} (h : Inst σ g t l) : ∀ c ∈ l, Within O N T c := by
  induction t using Tree.induct generalizing l with
  | hc v i => cases h; simpa using Within.const (hg i)
  | hv n x i => cases h with | var h => exact hσ n (by simp [Tree.names]) l h
  | ho o cs i ih =>
    cases h with
    | @op _ _ _ parts hl h =>
      cases ht with
      | op ho h2 =>
        simp only [List.mem_singleton, forall_eq]
        have hsub : ∀ k (hk : k < cs.length), ∀ n ∈ cs[k].names, n ∈ (Tree.op o cs i).names := by
          intro k hk n hn
          simp only [Tree.names]
          exact namesList_mem.2 ⟨_, List.getElem_mem hk, hn⟩
        have hO : O o parts.flatten.length := by
          rcases ho with ho | ⟨ho, ho'⟩
          · exact ho _
          · have hp : ∀ k (hk : k < parts.length), parts[k].length = 1 := by
              intro k hk
              have hk' : k < cs.length := by omega
              have hv := ho' _ (List.getElem_mem hk')
              have hn := hsub k hk'
              suffices hs : ∀ pk, Inst σ g cs[k] pk → pk.length = 1 from hs _ (h k hk')
              intro pk hin
              generalize cs[k] = c at hin hv hn
              cases hin with
              | const => rfl
              | op => rfl
              | @var n x j l hl =>
                obtain ⟨y, hy⟩ := h1 n (hn n (by simp [Tree.names])) (hv _ _ _ rfl)
                rw [hy] at hl
                cases hl
                rfl
            have : parts.flatten.length = cs.length := by
              rw [List.length_flatten, hl]
              have : parts.map List.length = List.replicate parts.length 1 := by
                refine List.ext_getElem (by simp) fun k a b => ?_
                simp [hp k (by simpa using a)]
              rw [this]
              simp
            rw [this]
            exact ho
        refine .op hO (hg i) fun c hc => ?_
        obtain ⟨part, hpart, hc⟩ := List.mem_flatten.1 hc
        obtain ⟨k, hk, rfl⟩ := List.mem_iff_getElem.1 hpart
        have hk' : k < cs.length := by omega
        exact ih _ (List.getElem_mem hk') (h2 _ (List.getElem_mem hk')) (fun n hn => hσ n (hsub k hk' n hn))
          (fun n hn => h1 n (hsub k hk' n hn)) (h k hk') c hc

end Within

/-- A rule that brings in no operators but those allowed, and does not rewrite single variables. -/
structure GoodRule (O : Op → Nat → Prop) (rule : RewriteRule V) : Prop where
  accepted : ∃ before cs after, Accepted before cs after rule ∧ Built O after ∧
    ∀ n x i, before ≠ .var n x i

theorem GoodRule.mono {O' : Op → Nat → Prop} (hO : ∀ o n, O o n → O' o n) {rule : RewriteRule V}
    (h : GoodRule O rule) : GoodRule O' rule := by
  obtain ⟨b, cs, a, h1, h2, h3⟩ := h
  exact ⟨b, cs, a, h1, h2.mono hO, h3⟩

theorem withIds_isVar {f : Str → Nat} {t : Tree V} {n : Str} {x i : Nat} (h : t.withIds f = .var n x i) :
    ∃ n x i, t = .var n x i := by
  cases t with
  | const => cases h
  | var => exact ⟨_, _, _, rfl⟩
  | op => cases h

/-- What matches a pattern that is not a variable is not one either. -/
theorem getMatching_not_var {before : Tree V} {cs : List (Tree V)} {W : List Str} {pat : Pattern V}
    (hp : PatternOf before cs W pat) (hb : ∀ n x i, before ≠ .var n x i) {eqV : V → V → Bool}
    {checker : Tree V → Bool} {s : Tree V} {m : Matching V}
    (h : getMatching eqV checker pat s = .ok (some m)) : ∀ n x i, s ≠ .var n x i := by
  rintro n x i rfl
  unfold getMatching at h
  obtain ⟨ms, hms, h⟩ := Res.bind_eq_ok.1 h
  simp only [Res.pure_eq, Res.ok.injEq] at h
  unfold getAllMatchings at hms
  cases ht : pat.tree with
  | var n' x' i' =>
    rw [hp.tree] at ht
    obtain ⟨n, x, i, e⟩ := withIds_isVar ht
    exact hb _ _ _ e
  | const v j =>
    rw [ht] at hms
    simp [extendMatching, treeEquals] at hms
    subst hms
    cases h
  | op o ps j =>
    rw [ht] at hms
    simp [extendMatching] at hms
    subst hms
    cases h

theorem Within.tok {t : Tree V} (h : Within O N T t) (ht : ∀ n x i, t ≠ .var n x i) : T t.tok := by
  cases h with
  | const h => exact h
  | var h => exact absurd rfl (ht _ _ _)
  | op _ h _ => exact h

theorem GoodRule.apply {rule : RewriteRule V} (hr : GoodRule O rule) {eqV : V → V → Bool}
    {checker : Tree V → Bool} {u u' : Tree V} (h : applyRule eqV checker rule u = .ok (some u'))
    (hu : Within O N T u) : Within O N T u' := by
  obtain ⟨before, cs, after, hr, ha, hb⟩ := hr
  obtain ⟨pre, p, s, post, m, w, -, -, h3, h4, h5⟩ := C29_applied hr eqV checker u u' h
  obtain ⟨hp, hs, hafter, hsub⟩ := hr.spec
  obtain ⟨ms, hms, hm⟩ := getMatching_mem h3
  have hsw : Within O N T s := Within.sub h5 hu
  have he := extends_of hp eqV checker s (Within O N T) (fun o cs i h => h.child) hsw hms hm
  obtain ⟨σ, hσ⟩ := C26_assignment before m
  have hT : T s.tok := hsw.tok (getMatching_not_var hs hb h3)
  refine Within.replaced h5 ?_ hu
  have hg := Assigns.get hs he.inv hσ
  obtain ⟨-, h8⟩ := C26_sound hp eqV checker s hms hm hσ
  refine Within.inst (fun _ => hT) after ha (fun n hn l hl c hc => ?_)
    (fun n hn hl => h8 n (by rw [varNames_eq]; exact hsub n hn) hl) (h4 σ hσ) w (by simp)
  have hlt := List.idxOf_lt_length_of_mem (hs.mem.2 (hsub n hn))
  rw [hg n (hsub n hn)] at hl
  exact he.inv.mem _ l ((he.inv.get hlt).trans hl) c hc

theorem GoodRule.first {rules : List (RewriteRule V)} (hr : ∀ r ∈ rules, GoodRule O r) {eqV : V → V → Bool}
    {checker : Tree V → Bool} {u u' : Tree V} (h : applyFirst eqV checker rules u = .ok (some u'))
    (hu : Within O N T u) : Within O N T u' := by
  induction rules with
  | nil => cases h
  | cons r rs ih =>
    simp only [applyFirst] at h
    obtain ⟨x, hx, h⟩ := Res.bind_eq_ok.1 h
    cases x with
    | none => exact ih (fun r hr' => hr r (by simp [hr'])) h
    | some y =>
      cases h
      exact (hr r (by simp)).apply hx hu

theorem reduceConst_within (L : Op → List V → Except ε V) (ve : ε) {t : Tree V} (h : Within O N T t) :
    ∀ p, Within O N T (reduceConst L ve t p).1 := by
  have key : ∀ (t : Tree V), Within O N T t → ∀ p, Within O N T (reduceConst L ve t p).1 := by
    intro t
    refine Tree.rec
      (motive_1 := fun t => Within O N T t → ∀ p, Within O N T (reduceConst L ve t p).1)
      (motive_2 := fun l => (∀ c ∈ l, Within O N T c) → ∀ p k, (reduceConsts L ve l p k).1.length = l.length ∧
        ∀ c ∈ (reduceConsts L ve l p k).1, Within O N T c) ?_ ?_ ?_ ?_ ?_ t
    · intro v i h p
      simpa [reduceConst, countVars, treeReduce] using h
    · intro n x i h p
      simpa [reduceConst, countVars] using h
    · intro o cs i ih h p
      cases h with
      | op h1 h2 h3 =>
        simp only [reduceConst]
        split
        · split
          · exact .op h1 h2 h3
          · exact .const h2
        · obtain ⟨g1, g2⟩ := ih h3 p 0
          exact .op (by rw [g1]; exact h1) h2 g2
    · intro _ p k; simp [reduceConsts]
    · intro c cs h1 h2 h p k
      have g1 := h1 (h c (by simp)) (p ++ [k])
      obtain ⟨g2, g3⟩ := h2 (fun c hc => h c (by simp [hc])) p (k + 1)
      simp only [reduceConsts]
      split
      · rename_i c' e he
        rw [he] at g1
        refine ⟨by simp, ?_⟩
        simp only [List.mem_cons, forall_eq_or_imp]
        exact ⟨g1, fun c hc => h c (by simp [hc])⟩
      · rename_i c' he
        rw [he] at g1
        refine ⟨by simp [g2], ?_⟩
        simp only [List.mem_cons, forall_eq_or_imp]
        exact ⟨g1, g3⟩
  exact key t h

theorem replaceNeg_within (D : Doubles V) (hO : O negOp 1) {t : Tree V} (h : Within O N T t) :
    Within O N T (replaceNegConsts D t) := by
  induction t using Tree.induct with
  | hc v i =>
    cases h with
    | const h =>
      simp only [replaceNegConsts]
      split
      · refine .op hO h ?_
        simp only [List.mem_singleton, forall_eq]
        exact .const h
      · exact .const h
  | hv => exact h
  | ho o cs i ih =>
    cases h with
    | op h1 h2 h3 =>
      simp only [replaceNegConsts, SimplProps.replaceNegConstsList_eq]
      refine .op (by simpa using h1) h2 ?_
      simp only [List.mem_map, forall_exists_index, and_imp, forall_apply_eq_imp_iff₂]
      exact fun c hc => ih c hc (h3 c hc)

theorem applyRuleset_one {eqV : V → V → Bool} {checker : Tree V → Bool} {rules : List (RewriteRule V)} {t : Tree V}
    {r : Option (Tree V × Nat)} (h : applyRuleset eqV checker rules 1 1 t = .ok r) :
    (applyFirst eqV checker rules t = .ok none ∧ r = some (t, 0)) ∨
    ∃ t', applyFirst eqV checker rules t = .ok (some t') ∧ r = some (t', 1) := by
  unfold applyRuleset applyLoop at h
  obtain ⟨x, hx, h⟩ := Res.bind_eq_ok.1 h
  cases x with
  | none => cases h; exact .inl ⟨hx, rfl⟩
  | some t' =>
    simp only [if_true] at h
    cases h
    exact .inr ⟨t', hx, rfl⟩

theorem simplifyLoop_within {rules : List (RewriteRule V)} (hr : ∀ r ∈ rules, GoodRule O r) (hO : O negOp 1)
    {D : Doubles V} {checker : Tree V → Bool} {L : Op → List V → Except ε V} {ve : ε} {fuel : Nat} {t t' : Tree V}
    (h : simplifyLoop D checker L ve rules fuel t = .ok (some t')) (ht : Within O N T t) : Within O N T t' := by
  induction fuel generalizing t with
  | zero => cases h
  | succ fuel ih =>
    simp only [simplifyLoop] at h
    obtain ⟨r, hr', h⟩ := Res.bind_eq_ok.1 h
    rcases applyRuleset_one hr' with ⟨-, rfl⟩ | ⟨u, hu, rfl⟩
    · cases h
      exact replaceNeg_within D hO ht
    · exact ih h (reduceConst_within L ve (GoodRule.first hr hu ht) [])

namespace Machine
variable (M : Machine V ε)

theorem _root_.Verif.Out.ofFuel_ok {α : Type} {x : Res (Option α)} {a : α} (h : Out.ofFuel x = .ok a) : x = .ok (some a) := by
  cases x with
  | ok o => cases o with
    | none => cases h
    | some b => cases h; rfl
  | defect => cases h
  | ub => cases h

theorem applySimplification_within {rules : List (RewriteRule V)} (hr : ∀ r ∈ rules, GoodRule O r) (hO : O negOp 1)
    {t t' : Tree V} (h : M.applySimplification rules t = .ok t') (ht : Within O N T t) : Within O N T t' :=
  simplifyLoop_within hr hO (Out.ofFuel_ok h) ht

theorem applyAll_within {rulesets : Nat → List (RewriteRule V)} {ks : List Nat}
    (hr : ∀ k ∈ ks, ∀ r ∈ rulesets k, GoodRule O r) (hO : O negOp 1)
    {t t' : Tree V} (h : M.applyAll rulesets ks t = .ok t') (ht : Within O N T t) : Within O N T t' := by
  induction ks generalizing t with
  | nil => cases h; exact ht
  | cons k ks ih =>
    simp only [applyAll] at h
    obtain ⟨u, hu, h⟩ := Out.bind_eq_ok.1 h
    exact ih (fun k hk => hr k (by simp [hk])) h (M.applySimplification_within (hr k (by simp)) hO hu ht)

end Machine
end Verif
