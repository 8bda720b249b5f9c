import Verif.Lemmas.RuleIndex

/-!
# From the data of rules to the rules of the program
-/

namespace Verif.Rules
open Verif RewriteProps Topology
variable {I : Interp} {ε : Type}

/-- The rule that is read from the text of `d`. -/
def RuleOf (d : RuleData) (r : RewriteRule ℝ) : Prop :=
  d.check = true ∧ parseRule (ruleParser fun q : ℚ => (q : ℝ)) d.text.toList = .ok (some r)

theorem mem_allRules {k : Nat} {d : RuleData} (h : d ∈ dataOf k) : d ∈ allRules := by
  match k, h with
  | 0, h => simp only [allRules, List.mem_append]; simp only [dataOf] at h; simp [h]
  | 1, h => simp only [allRules, List.mem_append]; simp only [dataOf] at h; simp [h]
  | 2, h => simp only [allRules, List.mem_append]; simp only [dataOf] at h; simp [h]
  | 3, h => simp only [allRules, List.mem_append]; simp only [dataOf] at h; simp [h]
  | 4, h => simp only [allRules, List.mem_append]; simp only [dataOf] at h; simp [h]
  | 5, h => simp only [allRules, List.mem_append]; simp only [dataOf] at h; simp [h]
  | 6, h => simp only [allRules, List.mem_append]; simp only [dataOf] at h; simp [h]
  | _ + 7, h => cases h

/-- The rules that are read from the shipped file. -/
theorem shipped_rules (hI : I.Right) : ∃ rules, parseRulesets (ruleParser fun q : ℚ => (q : ℝ)) numRulesets shippedText
      = .ok (7, rules) ∧ ∀ k, List.Forall₂ RuleOf (dataOf k) (rules k) := by
  classical
  let R : Str → RewriteRule ℝ := fun s =>
    if h : ∃ r, parseRule (ruleParser fun q : ℚ => (q : ℝ)) s = .ok (some r) then h.choose else ⟨⟨.const 0 0, fun _ => []⟩, .const 0 0⟩
  have hR : ∀ d ∈ allRules, parseRule (ruleParser fun q : ℚ => (q : ℝ)) d.text.toList = .ok (some (R d.text.toList)) := by
    intro d hd
    obtain ⟨r, hr, -⟩ := d.applied hI (allRules_check d hd)
    have h : ∃ r, parseRule (ruleParser fun q : ℚ => (q : ℝ)) d.text.toList = .ok (some r) := ⟨r, hr⟩
    simp only [R]
    rw [dif_pos h]
    exact h.choose_spec
  refine ⟨_, rulesetsLoop_lines (R := R) _ _ _ _ shipped_lines ?_, ?_⟩
  · intro l hl
    simp only [dataTexts, List.mem_flatMap] at hl
    obtain ⟨k, -, hl⟩ := hl
    obtain ⟨d, hd, rfl⟩ := List.mem_map.1 hl
    exact hR d (mem_allRules hd)
  · intro k
    have e : ((dataTexts.filter fun l => l.1 == k).map fun l => R l.2)
        = (dataOf k).map fun d => R d.text.toList := by
      have := congrArg (List.map R) (filter_texts k)
      simpa only [List.map_map, Function.comp_def] using this
    rw [List.nil_append, e, List.forall₂_map_right_iff, List.forall₂_same]
    intro d hd
    exact ⟨allRules_check d (mem_allRules hd), hR d (mem_allRules hd)⟩

theorem RuleOf.spec (hI : I.Right) {d : RuleData} {rule : RewriteRule ℝ} (h : RuleOf d rule) :
    ∀ (ε : Type) (arith : Op → List ℝ → Except ε ℝ) (ve : ε), Follows I arith →
    ∀ t t', applyRule eqR (realChecker arith ve) rule t = .ok (some t') →
    ∃ σ p s w, Replaced t p s w t' ∧ (∀ n x i, s ≠ .var n x i) ∧ Singles d.left σ ∧
      (∀ c ∈ d.conds, c.Holds I σ) ∧
      (∀ env v, Val I s env v ↔ PD I σ d.left env ∧ [v] = PV I σ d.left env) ∧
      (∀ env v, Val I w env v ↔ PD I σ d.right env ∧ [v] = PV I σ d.right env) ∧
      ∃ τ b l, σ = sub τ ∧ Same RatCast b d.left ∧ Inst τ (fun i => i) b [l] ∧ Equal eqR l s ∧
        ∀ n ∈ b.names, ¬ ListName n → ∃ x, τ n = some [x] := by
  obtain ⟨h1, h2⟩ := h
  obtain ⟨r, h3, h4⟩ := d.applied hI h1
  rw [h2] at h3
  cases h3
  exact h4

theorem RuleOf.improves (hI : I.Right) {d : RuleData} {rule : RewriteRule ℝ} (h : RuleOf d rule) (hg : d.Good I) :
    Improves I rule := by
  intro ε arith ve hf t t' ht env v hv
  obtain ⟨σ, p, s, w, h1, h2, h3, h4, h5, h6, -⟩ := h.spec hI ε arith ve hf t t' ht
  refine h1.val h2 (fun env v hv => ?_) hv
  obtain ⟨g1, g2⟩ := (h5 env v).1 hv
  obtain ⟨g3, g4⟩ := hg σ h3 h4 env g1
  exact (h6 env v).2 ⟨g3, by rw [g4, g2]⟩

theorem RuleOf.agrees (hI : I.Right) {d : RuleData} {rule : RewriteRule ℝ} (h : RuleOf d rule) (hg : d.Fair I) :
    Agrees I rule := by
  intro ε arith ve hf t t' ht env v v' hv hv'
  obtain ⟨σ, p, s, w, h1, h2, h3, h4, h5, h6, -⟩ := h.spec hI ε arith ve hf t t' ht
  refine h1.val_eq hI.unique h2 (fun env v v' hv hv' => ?_) hv hv'
  obtain ⟨g1, g2⟩ := (h5 env v).1 hv
  obtain ⟨g3, g4⟩ := (h6 env v').1 hv'
  have := hg σ h3 h4 env g1 g3
  rw [← g2, ← g4] at this
  exact (List.cons.inj this).1.symm

/-- What a rule for derivatives is applied to. -/
theorem deriv_parts (hI : I.Right) {τ : Str → Option (List (Tree ℝ))} {b l s : Tree ℝ} {p : Pat} {z : String}
    (hb : Same RatCast b (.deriv p z)) (hi : Inst τ (fun i => i) b [l]) (he : Equal eqR l s)
    (hn : ∀ n ∈ b.names, ¬ ListName n → ∃ x, τ n = some [x]) :
    ∃ o f g j c f', s = .op o [f, g] j ∧ o.id = I.deriv ∧ Equal eqR f' f ∧ Same RatCast c p ∧
      Inst τ (fun i => i) c [f'] ∧
      (∀ x k i, g = .var x k i → ∃ i', sub τ z = [.var x k i']) ∧
      ∀ env, D I f env ↔ PD I (sub τ) p env := by
  generalize hl : [l] = ls at hi
  cases hi with
  | const => simp [Same] at hb
  | var => simp [Same] at hb
  | @op o cs i parts hlen hc =>
    simp only [List.cons.injEq, and_true] at hl
    subst hl
    simp only [Same] at hb
    obtain ⟨ho, -, hp, hz, c, x, j, rfl, hs⟩ := hb
    match parts, hlen, hc with
    | [a, b], hlen, hc =>
      have h0 := hc 0 (by simp)
      have h1 := hc 1 (by simp)
      simp only [List.getElem_cons_zero, List.getElem_cons_succ] at h0 h1
      simp only [Tree.names, Tree.namesList, List.append_nil] at hn
      obtain ⟨f', rfl⟩ := inst_single hn hs hp h0 (fun n h => by simp [h])
      obtain ⟨w, hw⟩ := hn z.toList (by simp) (by rw [← isListName_iff, hz]; simp)
      cases h1 with
      | var h1 =>
        rw [hw] at h1
        cases h1
        have hsub : sub τ z = [w] := by simp [sub, hw]
        simp only [List.flatten_cons, List.flatten_nil, List.append_nil, List.singleton_append] at he
        have hval : ∀ f, Equal eqR f' f → ∀ env, D I f env ↔ PD I (sub τ) p env := by
          intro f hf env
          have := fun vs => inst_vals hI hn p hs h0 (fun n h => by simp [h]) (env := env) (vs := vs)
          constructor
          · rintro ⟨v, hv⟩
            exact ((this [v]).1 (Vals.single.2 ⟨v, rfl, hf.val hv⟩)).1
          · intro h
            obtain ⟨v, -, hv⟩ := Vals.single.1 ((this _).2 ⟨h, rfl⟩)
            exact ⟨v, hf.symm.val hv⟩
        have hvar : ∀ g, Equal eqR w g → ∀ x k i, g = .var x k i → ∃ i', sub τ z = [.var x k i'] := by
          rintro g hg x k i rfl
          rw [hsub]
          cases hg with
          | refl => exact ⟨_, rfl⟩
          | var => exact ⟨_, rfl⟩
        cases he with
        | refl =>
          exact ⟨o, f', w, i, c, f', rfl, by rw [hI.deriv_eq, ho], .refl, hs, h0, hvar w .refl, hval f' .refl⟩
        | @op _ q _ ds _ j' hl2 hid hds =>
          match ds, hl2, hds with
          | [f, g], hl2, hds =>
            have e0 := hds 0 (by simp)
            have e1 := hds 1 (by simp)
            simp only [List.getElem_cons_zero, List.getElem_cons_succ] at e0 e1
            exact ⟨q, f, g, j', c, f', rfl, by rw [hI.deriv_eq, ← hid, ho], e0, hs, h0, hvar g e1, hval f e0⟩

theorem differentiates_of {d : RuleData} {σ : String → List (Tree ℝ)} {p : Pat} {z : String} (hd : d.left = .deriv p z)
    {o : Op} {f g w : Tree ℝ} {j : Nat} (ho : o.id = I.deriv)
    (hs : ∀ env v, Val I (.op o [f, g] j) env v ↔ PD I σ d.left env ∧ [v] = PV I σ d.left env)
    (hw : ∀ env v, Val I w env v ↔ PD I σ d.right env ∧ [v] = PV I σ d.right env)
    (hg : ∀ x k i, g = .var x k i → ∃ i', σ z = [.var x k i']) (hf : ∀ env, D I f env ↔ PD I σ p env)
    (h : ∀ env, Near I σ d.left env → PD I σ d.right env →
      PD I σ d.left env ∧ PV I σ d.right env = PV I σ d.left env) : Differentiates I f g w := by
  intro x k i hgx env v hn hv
  obtain ⟨i', hz⟩ := hg x k i hgx
  obtain ⟨h1, h2⟩ := (hw env v).1 hv
  have hnear : Near I σ d.left env := by
    rw [hd]
    refine ⟨x, k, i', hz, hn.mono fun y hy => (hf _).1 hy⟩
  obtain ⟨h3, h4⟩ := h env hnear h1
  have := (hs env v).2 ⟨h3, by rw [← h4, ← h2]⟩
  simp only [Val, ho, true_and, ne_eq, not_true_eq_false, false_and, or_false] at this
  exact this

theorem RuleOf.derives (hI : I.Right) {d : RuleData} {rule : RewriteRule ℝ} (h : RuleOf d rule)
    {p : Pat} {z : String} (hd : d.left = .deriv p z) (ho : d.Onward I) :
    Derives I (fun _ _ => True) rule := by
  intro ε arith ve hf t t' ht
  obtain ⟨σ, q, s, w, h1, h2, h3, h4, h5, h6, τ, b, l, rfl, g1, g2, g3, g4⟩ := h.spec hI ε arith ve hf t t' ht
  rw [hd] at g1
  obtain ⟨o, f, g, j, c, f', rfl, e2, -, -, -, e3, e4⟩ := deriv_parts hI g1 g2 g3 g4
  exact ⟨q, o, f, g, j, w, h1, e2, fun _ => differentiates_of hd e2 h5 h6 e3 e4 fun env hn hp => ho _ h3 h4 env hn hp⟩

/-- Variables apart: what is derived is not the variable. -/
def Apart (f g : Tree ℝ) : Prop := ∀ n k k' i i', g = .var n k i → f ≠ .var n k' i'

theorem RuleOf.derives7 (hI : I.Right) {rule : RewriteRule ℝ} (h : RuleOf r1_7 rule) : Derives I Apart rule := by
  intro ε arith ve hf t t' ht
  obtain ⟨σ, q, s, w, h1, h2, h3, h4, h5, h6, τ, b, l, rfl, g1, g2, g3, g4⟩ := h.spec hI ε arith ve hf t t' ht
  have hd : r1_7.left = .deriv (.v "x") "z" := rfl
  rw [hd] at g1
  obtain ⟨o, f, g, j, c, f', rfl, e2, e5, e6, e7, e3, e4⟩ := deriv_parts hI g1 g2 g3 g4
  refine ⟨q, o, f, g, j, w, h1, e2, fun ha => ?_⟩
  intro x k i hgx env v hn hv
  refine differentiates_of hd e2 h5 h6 e3 e4 (fun env hn _ => ?_) x k i hgx env v hn hv
  obtain ⟨i', hz⟩ := e3 x k i hgx
  have := r1_7_onward hI (sub τ) h3 h4 (by
    intro n k1 i1 k2 i2 hz' hx
    rw [hz] at hz'
    cases hz'
    have := inst_of_single e6 e7
    rw [hx] at this
    cases this
    cases e5 with
    | refl => exact ha _ _ _ _ _ hgx rfl
    | var => exact ha _ _ _ _ _ hgx rfl) env hn
  exact ⟨this.1, this.2.2⟩

/-! ## `deriv(x, x)` -/

/-- The first rule for derivatives matches the derivative of a variable by itself. -/
theorem RuleOf.matches6 {rule : RewriteRule ℝ} (h : RuleOf r1_6 rule) (checker : Tree ℝ → Bool)
    {o : Op} (ho : o.id = 3) (n : Str) (k i i' j : Nat) :
    ∃ m, getMatching eqR checker rule.pattern (.op o [.var n k i, .var n k i'] j) = .ok (some m) := by
  obtain ⟨h1, h2⟩ := h
  unfold RuleData.check at h1
  split at h1
  · rename_i l cs w hp
    simp only [Bool.and_eq_true] at h1
    obtain ⟨⟨⟨⟨⟨⟨⟨⟨h1, h3⟩, -⟩, -⟩, -⟩, -⟩, -⟩, -⟩, -⟩ := h1
    have hp' := ruleParts_natural (ruleParser_natural (fun q : ℚ => (q : ℝ)) (fun q => q)) hp
    rw [parseRule_parts _ _ hp'] at h2
    obtain rfl : cs = [] := by
      cases cs with
      | nil => rfl
      | cons c cs => simp [r1_6, sames] at h3
    have hl := same_cast _ _ h1
    rw [show r1_6.left = .deriv (.v "x") "x" from rfl] at hl
    generalize hlr : (l.mapVal fun q : ℚ => (q : ℝ)) = lr at *
    cases lr with
    | const => simp [Same] at hl
    | var => simp [Same] at hl
    | op oo cs' a =>
      simp only [Same] at hl
      obtain ⟨h4, h5, -, -, c, x, jj, rfl, hc⟩ := hl
      cases c with
      | const => simp [Same] at hc
      | op => simp [Same] at hc
      | var m y jj' =>
        simp only [Same] at hc
        subst hc
        have hpat : getPattern (Tree.op oo [.var "x".toList y jj', .var "x".toList x jj] a) []
            = Except.ok (⟨.op oo [.var "x".toList 0 jj', .var "x".toList 0 jj] a, fun _ => []⟩ : Pattern ℝ) := by
          rfl
        simp only [List.map_nil] at h2
        rw [hpat] at h2
        simp only [Res.pure_eq, Res.ok.injEq] at h2
        have hr : rule.pattern = ⟨.op oo [.var "x".toList 0 jj', .var "x".toList 0 jj] a, fun _ => []⟩ := by
          have := (Accepted.spec ⟨_, hpat, h2⟩).1
          rw [hpat] at this
          exact (Except.ok.inj this).symm
        rw [hr]
        refine ⟨Matching.empty.bind 0 [.var n k i], ?_⟩
        have hid : oo.id = o.id := by rw [h4, ho]
        simp [getMatching, getAllMatchings, extendMatching, fillSuffix, suffixLevels, suffixExtend, Res.flatMap,
          hid, Tree.isListVar, isListName, Matching.empty, Matching.bind, maxMappedVars, checkConstraints,
          nodelistsEqual, treeEquals, Res.pure_eq, Res.bind_ok]
  · cases h1

/-! ## Ids of variables -/

section
variable {V : Type}

theorem _root_.Verif.Inst.noIds {σ : Str → Option (List (Tree V))} {g : Nat → Nat} (t : Tree V) {l : List (Tree V)}
    (h : Inst σ g t l) (hσ : ∀ n ∈ t.names, ∀ r, σ n = some r → ∀ x ∈ r, NoIds x) : ∀ x ∈ l, NoIds x := by
  induction t using Tree.induct generalizing l with
  | hc => cases h; simp [NoIds.const]
  | hv a x i =>
    cases h with
    | var h => exact hσ a (by simp [Tree.names]) l h
  | ho o cs i ih =>
    cases h with
    | @op _ _ _ parts hl h =>
      simp only [List.mem_singleton, forall_eq]
      refine .op fun c hc => ?_
      obtain ⟨part, hpart, hc⟩ := List.mem_flatten.1 hc
      obtain ⟨k, hk, rfl⟩ := List.mem_iff_getElem.1 hpart
      have hk' : k < cs.length := by omega
      refine ih _ (List.getElem_mem hk') (h k hk') (fun n hn => hσ n ?_) c hc
      simp only [Tree.names]
      exact namesList_mem.2 ⟨_, List.getElem_mem hk', hn⟩

theorem _root_.Verif.Inst.noIds_of {σ : Str → Option (List (Tree V))} {g : Nat → Nat} (t : Tree V) {l : List (Tree V)}
    (h : Inst σ g t l) (hl : ∀ x ∈ l, NoIds x) {n : Str} (hn : n ∈ t.names) {r : List (Tree V)} (hr : σ n = some r) :
    ∀ x ∈ r, NoIds x := by
  induction t using Tree.induct generalizing l with
  | hc => cases hn
  | hv b x i =>
    simp only [Tree.names, List.mem_singleton] at hn
    subst hn
    cases h with
    | var h => rw [hr] at h; cases h; exact hl
  | ho o cs i ih =>
    cases h with
    | @op _ _ _ parts hlen h =>
      simp only [Tree.names] at hn
      obtain ⟨c, hc, hn⟩ := namesList_mem.1 hn
      obtain ⟨k, hk, rfl⟩ := List.mem_iff_getElem.1 hc
      simp only [List.mem_singleton, forall_eq] at hl
      cases hl with
      | op hl =>
        exact ih _ hc (h k hk) (fun x hx => hl x (List.mem_flatten.2 ⟨_, List.getElem_mem (hlen ▸ hk), hx⟩)) hn

theorem _root_.Verif.Equal.noIds {eqV : V → V → Bool} {a b : Tree V} (h : Equal eqV a b) : NoIds b → NoIds a := by
  induction h with
  | refl => exact fun h => h
  | const => exact fun _ => .const
  | var => intro h; cases h; exact .var
  | @op o p cs ds i j hl _ _ ih =>
    intro h
    cases h with
    | op h =>
      refine .op fun c hc => ?_
      obtain ⟨k, hk, rfl⟩ := List.mem_iff_getElem.1 hc
      exact ih k hk (h _ (List.getElem_mem _))

theorem _root_.Verif.Replaced.noIds_sub {u s w u' : Tree V} {p : List Nat} (h : Replaced u p s w u') :
    NoIds u → NoIds s := by
  induction h with
  | here => exact fun h => h
  | child _ ih =>
    intro h
    cases h with
    | op h => exact ih (h _ (by simp))

theorem _root_.Verif.Replaced.noIds {u s w u' : Tree V} {p : List Nat} (h : Replaced u p s w u') (hw : NoIds w) :
    NoIds u → NoIds u' := by
  induction h with
  | here => exact fun _ => hw
  | child _ ih =>
    intro h
    cases h with
    | op h =>
      refine .op fun c hc => ?_
      rcases List.mem_append.1 hc with hc | hc
      · exact h c (by simp [hc])
      · rcases List.mem_cons.1 hc with rfl | hc
        · exact ih hw (h _ (by simp))
        · exact h c (by simp [hc])

/-- Rules do not make new ids. -/
theorem applyRule_noIds {rule : RewriteRule V} (hr : ∃ before cs after, Accepted before cs after rule)
    {eqV : V → V → Bool} {checker : Tree V → Bool} {u u' : Tree V}
    (h : applyRule eqV checker rule u = .ok (some u')) (hu : NoIds u) : NoIds u' := by
  obtain ⟨before, cs, after, hr⟩ := hr
  obtain ⟨-, -, -, hsub⟩ := hr.spec
  obtain ⟨σ, p, s, l, w, h1, h2, h3, -, -, h4⟩ := C29_instance hr eqV checker u u' h
  have hl := h3.noIds (h1.noIds_sub hu)
  refine h1.noIds ?_ hu
  refine h4.noIds after (fun n hn r hr => ?_) w (by simp)
  exact h2.noIds_of before (by simpa using hl) (hsub n hn) hr

theorem parseRule_accepted {parse : Str → Res (Option (Tree V))} {s : Str} {rule : RewriteRule V}
    (h : parseRule parse s = .ok (some rule)) : ∃ before cs after, Accepted before cs after rule := by
  unfold parseRule at h
  simp only at h
  split at h
  · cases h
  · obtain ⟨x, -, h⟩ := Res.bind_eq_ok.1 h
    cases x with
    | none => cases h
    | some cs =>
      simp only at h
      obtain ⟨y, -, h⟩ := Res.bind_eq_ok.1 h
      cases y with
      | none => cases h
      | some l =>
        simp only at h
        obtain ⟨z, -, h⟩ := Res.bind_eq_ok.1 h
        cases z with
        | none => cases h
        | some r =>
          simp only at h
          split at h
          · cases h
          · rename_i pat hp
            simp only [Res.pure_eq, Res.ok.injEq] at h
            exact ⟨l, cs, r, ⟨pat, hp, h⟩⟩

theorem _root_.Verif.Replaced.deref {u s w u' : Tree V} {p : List Nat} (h : Replaced u p s w u') :
    u.deref p = some s := by
  induction h with
  | here => rename_i s u; cases s <;> rfl
  | child _ ih => simp [Tree.deref, ih]

end

end Verif.Rules
