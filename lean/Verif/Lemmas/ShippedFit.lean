import Verif.Lemmas.SimplifySafe
import Verif.Lemmas.ShippedTrees
import Verif.Props.Rewrite

/-!
# The shipped rules are safe
-/

namespace Verif
open TreeProps MatchProps RewriteProps
variable {V : Type}

/-- The rules of a list of lists agree with the conditions of `ListsApart`. -/
def apartHere (seen : List Str) : List (Tree V) → Bool
  | [] => true
  | c :: b => (!(c.isListVar && c.names.all seen.contains) || b.all fun d => !d.isListVar) && apartHere seen b

mutual
def apartB (seen : List Str) : Tree V → Bool
  | .const _ _ => true
  | .var _ _ _ => true
  | .op _ cs _ => apartHere seen cs && apartsB seen cs
def apartsB (seen : List Str) : List (Tree V) → Bool
  | [] => true
  | c :: cs => apartB seen c && apartsB (seen ++ c.names) cs
end

theorem isListVar_mapVal {W : Type} (f : V → W) (t : Tree V) : (t.mapVal f).isListVar = t.isListVar := by
  cases t <;> simp [Tree.isListVar]

theorem apartHere_mapVal {W : Type} (f : V → W) (seen : List Str) (cs : List (Tree V)) :
    apartHere seen (cs.map (Tree.mapVal f)) = apartHere seen cs := by
  induction cs with
  | nil => rfl
  | cons c cs ih =>
    simp only [List.map_cons, apartHere, ih, isListVar_mapVal, Rules.names_mapVal, List.all_map]
    congr 2
    congr 1
    funext d
    exact congrArg _ (isListVar_mapVal f d)

theorem apartB_mapVal {W : Type} (f : V → W) (t : Tree V) : ∀ seen, apartB seen (t.mapVal f) = apartB seen t := by
  refine Tree.rec (motive_1 := fun t => ∀ seen, apartB seen (t.mapVal f) = apartB seen t)
    (motive_2 := fun l => ∀ seen, apartsB seen (l.map (Tree.mapVal f)) = apartsB seen l) ?_ ?_ ?_ ?_ ?_ t
  · intro v i seen; simp [apartB]
  · intro n x i seen; simp [apartB]
  · intro o cs i ih seen
    simp only [Tree.mapVal_op, apartB, apartHere_mapVal, ih]
  · intro seen; rfl
  · intro c cs h1 h2 seen
    simp only [List.map_cons, apartsB, h1, h2, Rules.names_mapVal]

theorem apartHere_spec {seen : List Str} {cs : List (Tree V)} (h : apartHere seen cs = true) :
    ∀ a b n x i, cs = a ++ .var n x i :: b → ListName n → n ∈ seen →
      ∀ n' x' i', Tree.var n' x' i' ∈ b → ¬ ListName n' := by
  induction cs with
  | nil => intro a b n x i e; simp at e
  | cons c cs ih =>
    simp only [apartHere, Bool.and_eq_true, Bool.or_eq_true, List.all_eq_true] at h
    intro a b n x i e hn hs
    cases a with
    | nil =>
      simp only [List.nil_append, List.cons.injEq] at e
      obtain ⟨rfl, rfl⟩ := e
      rcases h.1 with h1 | h1
      · simp [Tree.isListVar, Tree.names, isListName_iff'.2 hn, hs] at h1
      · intro n' x' i' hm hl
        have := h1 _ hm
        simp [Tree.isListVar, isListName_iff'.2 hl] at this
    | cons d a =>
      simp only [List.cons_append, List.cons.injEq] at e
      exact ih h.2 a b n x i e.2 hn hs

theorem apartB_spec (t : Tree V) : ∀ seen, apartB seen t = true → ListsApart seen t := by
  refine Tree.rec (motive_1 := fun t => ∀ seen, apartB seen t = true → ListsApart seen t)
    (motive_2 := fun l => ∀ seen, apartsB seen l = true → ListsApartAll seen l) ?_ ?_ ?_ ?_ ?_ t
  · intros; trivial
  · intros; trivial
  · intro o cs i ih seen h
    simp only [apartB, Bool.and_eq_true] at h
    exact ⟨apartHere_spec h.1, ih seen h.2⟩
  · intros; trivial
  · intro c cs h1 h2 seen h
    simp only [apartsB, Bool.and_eq_true] at h
    refine ⟨h1 seen h.1, ?_⟩
    rw [varNames_eq]
    exact h2 _ h.2

def builtInB (o : Op) : Bool :=
  match arithOps[o.id]? with
  | some q => decide (o = { q with id := o.id })
  | none => false

theorem builtInB_spec {o : Op} (h : builtInB o = true) {n : Nat} (ha : o.arity = .dyn ∨ o.arity = .fixed n) : BuiltIn o n := by
  unfold builtInB at h
  split at h
  · rename_i q hq
    exact ⟨⟨q, hq, of_decide_eq_true h⟩, ha⟩
  · cases h

mutual
/-- The operators of a right side. -/
def builtB (ok : Op → Bool) : Tree V → Bool
  | .const _ _ => true
  | .var _ _ _ => true
  | .op o cs _ => ok o && (o.arity == .dyn || (o.arity == .fixed cs.length && cs.all fun c => !c.isListVar)) && buildsB ok cs
def buildsB (ok : Op → Bool) : List (Tree V) → Bool
  | [] => true
  | c :: cs => builtB ok c && buildsB ok cs
end

theorem builtB_mapVal {W : Type} (f : V → W) (ok : Op → Bool) (t : Tree V) : builtB ok (t.mapVal f) = builtB ok t := by
  refine Tree.rec (motive_1 := fun t => builtB ok (t.mapVal f) = builtB ok t)
    (motive_2 := fun l => buildsB ok (l.map (Tree.mapVal f)) = buildsB ok l) ?_ ?_ ?_ ?_ ?_ t
  · intro v i; simp [builtB]
  · intro n x i; simp [builtB]
  · intro o cs i ih
    have e : ((cs.map (Tree.mapVal f)).all fun c => !c.isListVar) = cs.all fun c => !c.isListVar := by
      rw [List.all_map]
      congr 1
      funext d
      exact congrArg _ (isListVar_mapVal f d)
    simp only [Tree.mapVal_op, builtB, List.length_map, e, ih]
  · rfl
  · intro c cs h1 h2
    simp only [List.map_cons, buildsB, h1, h2]

theorem builtB_spec {ok : Op → Bool} {O : Op → Nat → Prop}
    (hO : ∀ o n, ok o = true → (o.arity = .dyn ∨ o.arity = .fixed n) → O o n) (t : Tree V) (h : builtB ok t = true) :
    Built O t := by
  revert h
  refine Tree.rec (motive_1 := fun t => builtB ok t = true → Built O t)
    (motive_2 := fun l => buildsB ok l = true → ∀ c ∈ l, Built O c) ?_ ?_ ?_ ?_ ?_ t
  · intros; exact .const
  · intros; exact .var
  · intro o cs i ih h
    simp only [builtB, Bool.and_eq_true, Bool.or_eq_true, beq_iff_eq, List.all_eq_true] at h
    obtain ⟨⟨h1, h2⟩, h3⟩ := h
    refine .op ?_ (ih h3)
    rcases h2 with h2 | ⟨h2, h4⟩
    · exact .inl fun n => hO o n h1 (.inl h2)
    · refine .inr ⟨hO o _ h1 (.inr h2), ?_⟩
      rintro c hc n x j rfl hl
      have := h4 _ hc
      simp [Tree.isListVar, isListName_iff'.2 hl] at this
  · intro _ c hc; cases hc
  · intro c cs h1 h2 h
    simp only [buildsB, Bool.and_eq_true] at h
    intro d hd
    rcases List.mem_cons.1 hd with rfl | hd
    · exact h1 h.1
    · exact h2 h.2 d hd

namespace Shipped

/-- The operators right sides of the ruleset `k` may have. -/
def okOp (k : Nat) (o : Op) : Bool := (builtInB o && o.id != 2 && (o.id != 3 || k == 1)) || (k == 0 && o.id == 73)

def notVar : Tree ℚ → Bool
  | .var _ _ _ => false
  | _ => true

/-- All that is asked of a rule. -/
def RuleParts.fits (k : Nat) (p : RuleParts) : Bool :=
  apartB [] p.left && notVar p.left && builtB (okOp k) p.right && !p.right.isListVar &&
    (p.conds.all fun c => notVar c && c.names.all fun n => p.left.names.contains n) &&
    decide ((addNew [] p.left.names).length ≤ maxMappedVars) && decide (p.conds.length ≤ maxConstraints) &&
    p.right.names.all fun n => p.left.names.contains n

theorem parts_fit : ∀ k, ∀ p ∈ partsOf k, p.fits k = true
  | 0 => by decide +kernel
  | 1 => by decide +kernel
  | 2 => by decide +kernel
  | 3 => by decide +kernel
  | 4 => by decide +kernel
  | 5 => by decide +kernel
  | 6 => by decide +kernel
  | _ + 7 => by intro p hp; cases hp

theorem rule_accepted {p : RuleParts} {k : Nat} (h : p.fits k = true) (f : ℚ → V) :
    Accepted (p.left.mapVal f) (p.conds.map (Tree.mapVal f)) (p.right.mapVal f) (p.rule f) := by
  simp only [RuleParts.fits, Bool.and_eq_true, List.all_eq_true, List.contains_iff_mem, decide_eq_true_eq] at h
  obtain ⟨⟨⟨-, h1⟩, h2⟩, h3⟩ := h
  obtain ⟨pat, rule, g1, g2⟩ := Rules.accepted_of (l := p.left.mapVal f) (r := p.right.mapVal f)
    (cs := p.conds.map (Tree.mapVal f)) (by rwa [Rules.names_mapVal]) (by simpa using h2)
    (by simpa only [Rules.names_mapVal] using h3)
  refine ⟨pat, g1, ?_⟩
  simp only [RuleParts.rule, g1, g2, Option.getD_some]

theorem notVar_mapVal {t : Tree ℚ} (h : notVar t = true) (f : ℚ → V) : ∀ n x i, t.mapVal f ≠ .var n x i := by
  intro n x i e
  cases t with
  | const => simp at e
  | var => cases h
  | op => simp at e

theorem rule_safe {p : RuleParts} {k : Nat} (h : p.fits k = true) (f : ℚ → V) : SafeRule (p.rule f) := by
  have ha := rule_accepted h f
  simp only [RuleParts.fits, Bool.and_eq_true, List.all_eq_true, List.contains_iff_mem, decide_eq_true_eq] at h
  obtain ⟨⟨⟨⟨⟨⟨⟨h1, h2⟩, h3⟩, h4⟩, h5⟩, -⟩, -⟩, -⟩ := h
  refine ⟨_, _, _, ha, apartB_spec _ _ ((apartB_mapVal f _ _).trans h1), ?_, ?_, ?_⟩
  · intro c hc n hn
    obtain ⟨d, hd, rfl⟩ := List.mem_map.1 hc
    rw [varNames_eq, Rules.names_mapVal] at hn ⊢
    exact (h5 d hd).2 n hn
  · intro c hc n x i e
    obtain ⟨d, hd, rfl⟩ := List.mem_map.1 hc
    exact absurd e (notVar_mapVal (h5 d hd).1 f n x i)
  · intro n x i e hl
    have h6 : (p.right.mapVal f).isListVar = p.right.isListVar := isListVar_mapVal f _
    rw [e] at h6
    rw [← h6] at h4
    simp [Tree.isListVar, isListName_iff'.2 hl] at h4

theorem rule_good {p : RuleParts} {k : Nat} (h : p.fits k = true) (f : ℚ → V) :
    GoodRule (fun o n => (BuiltIn o n ∧ o.id ≠ 2 ∧ (o.id = 3 → k = 1)) ∨ (k = 0 ∧ o.id = 73)) (p.rule f) := by
  have ha := rule_accepted h f
  simp only [RuleParts.fits, Bool.and_eq_true] at h
  obtain ⟨⟨⟨⟨⟨⟨⟨-, h2⟩, h3⟩, -⟩, -⟩, -⟩, -⟩, -⟩ := h
  refine ⟨_, _, _, ha, ?_, notVar_mapVal h2 f⟩
  refine builtB_spec (ok := okOp k) ?_ _ ((builtB_mapVal f _ _).trans h3)
  intro o n ho har
  simp only [okOp, Bool.or_eq_true, Bool.and_eq_true, bne_iff_ne, beq_iff_eq] at ho
  rcases ho with ⟨⟨g1, g2⟩, g3⟩ | ho
  · exact .inl ⟨builtInB_spec g1 har, g2, fun e => g3.resolve_left (fun h => h e)⟩
  · exact .inr ho

theorem rule_pattern {p : RuleParts} {f : ℚ → V} {pat : Pattern V}
    (h : getPattern (p.left.mapVal f) (p.conds.map (Tree.mapVal f)) = .ok pat)
    (h2 : (listVariables maxMappedVars pat.tree).tree = pat.tree) : (p.rule f).pattern = pat := by
  unfold RuleParts.rule
  rw [h]
  dsimp only
  unfold getRule
  dsimp only
  rw [h2]
  split <;> split <;> rfl

theorem count_zero (f : ℚ → V) (eqV : V → V → Bool) (ck : Tree V → Bool) (o : Op) (ho : o.id = 73) (i : Nat) :
    getMatching eqV ck (p0_0.rule f).pattern (.op o [] i) ≠ .ok none := by
  have e : (p0_0.rule f).pattern = ⟨.op o73 [] 0, fun _ => []⟩ := by
    refine rule_pattern ?_ (by kernel_rfl)
    simp only [p0_0, Tree.mapVal_op, List.map_nil]
    kernel_rfl
  have e73 : o73.id = 73 := by rfl
  unfold getMatching getAllMatchings
  rw [e]
  simp [extendMatching, ho, e73, suffixLevels, Res.flatMap, fillSuffix]

theorem count_more (f : ℚ → V) (eqV : V → V → Bool) (ck : Tree V → Bool) (o : Op) (ho : o.id = 73) (i : Nat) (a : Tree V)
    (ts : List (Tree V)) :
    getMatching eqV ck (p0_1.rule f).pattern (.op o (a :: ts) i) ≠ .ok none := by
  have e : (p0_1.rule f).pattern = ⟨.op o73 [.var ['x'] 0 2, .var ['[', 'x', 's', ']'] 1 4] 0, fun _ => []⟩ := by
    refine rule_pattern ?_ (by kernel_rfl)
    simp only [p0_1, Tree.mapVal_op, Tree.mapVal_var, List.map_nil, List.map_cons]
    kernel_rfl
  have e73 : o73.id = 73 := by rfl
  have h1 : isListName ['x'] = false := by decide
  have h2 : isListName ['[', 'x', 's', ']'] = true := by decide
  unfold getMatching getAllMatchings
  rw [e]
  simp [extendMatching, ho, e73, suffixLevels, Res.flatMap, fillSuffix, suffixExtend, Tree.isListVar, Tree.varId, h1, h2,
    maxMappedVars, Matching.empty, Matching.bind, checkConstraints]

theorem first_none {eqV : V → V → Bool} {ck : Tree V → Bool} {rs : List (RewriteRule V)} {t : Tree V}
    (h : applyFirst eqV ck rs t = .ok none) : ∀ r ∈ rs, applyRule eqV ck r t = .ok none := by
  induction rs with
  | nil => intro r hr; cases hr
  | cons r rs ih =>
    rw [applyFirst] at h
    obtain ⟨x, hx, h⟩ := Res.bind_eq_ok.1 h
    cases x with
    | some y => simp at h
    | none =>
      simp only at h
      intro q hq
      rcases List.mem_cons.1 hq with rfl | hq
      · exact hx
      · exact ih h q hq

theorem allOps_of {P : Op → Nat → Prop} (t : Tree V) : (∀ p o cs i, t.deref p = some (.op o cs i) → P o cs.length) →
    Verif.AllOps P t := by
  refine Tree.rec (motive_1 := fun t => (∀ p o cs i, t.deref p = some (.op o cs i) → P o cs.length) → Verif.AllOps P t)
    (motive_2 := fun l => ∀ c ∈ l, (∀ p o cs i, c.deref p = some (.op o cs i) → P o cs.length) → Verif.AllOps P c)
    ?_ ?_ ?_ ?_ ?_ t
  · intros; exact .const
  · intros; exact .var
  · intro o cs i ih h
    refine .op (h [] o cs i rfl) fun c hc => ih c hc fun p q ds j hd => ?_
    obtain ⟨k, hk⟩ := List.getElem?_of_mem hc
    exact h (k :: p) q ds j (by simp only [Tree.deref, hk, hd])
  · intro c hc; cases hc
  · intro c cs h1 h2 d hd
    rcases List.mem_cons.1 hd with rfl | hd
    · exact h1
    · exact h2 d hd

theorem count_gone (f : ℚ → V) (eqV : V → V → Bool) (ck : Tree V → Bool) (t : Tree V)
    (h : applyFirst eqV ck (rulesAt f 0) t = .ok none) : Verif.AllOps (fun o _ => o.id ≠ 73) t := by
  have h0 := first_none h
  have m0 : p0_0.rule f ∈ rulesAt f 0 := List.mem_map.2 ⟨p0_0, by simp [partsOf, parts0], rfl⟩
  have m1 : p0_1.rule f ∈ rulesAt f 0 := List.mem_map.2 ⟨p0_1, by simp [partsOf, parts0], rfl⟩
  refine allOps_of t fun p o cs i hd ho => ?_
  have hm := deref_iff.2 hd
  cases cs with
  | nil => exact count_zero f eqV ck o ho i (C29_not_applied eqV ck _ t (h0 _ m0) _ hm)
  | cons a ts => exact count_more f eqV ck o ho i a ts (C29_not_applied eqV ck _ t (h0 _ m1) _ hm)

theorem fit (f : ℚ → V) : RulesFit (shippedSimp f) := by
  refine ⟨?_, ?_, count_gone f⟩ <;> intro k r hr <;> obtain ⟨p, hp, rfl⟩ := List.mem_map.1 hr
  · exact rule_safe (parts_fit k p hp) f
  · exact rule_good (parts_fit k p hp) f

end Shipped
end Verif
