import Verif.Lemmas.ParserMap
import Verif.Props.Printer

/-!
# C18: constants that are rounded when printed
-/

namespace Verif.PrinterProps
open Verif ParserProps GrammarProps
variable {V : Type}

/-- Two trees with the same operators and variables, whose constants are related by `R`. -/
inductive Alike (R : V → V → Prop) : Tree V → Tree V → Prop where
  | const {v w i j} : R v w → Alike R (.const v i) (.const w j)
  | var {n x y i j} : Alike R (.var n x i) (.var n y j)
  | op {o cs ds i j} (hl : cs.length = ds.length) :
      (∀ k (hk : k < cs.length), Alike R cs[k] (ds[k]'(hl ▸ hk))) → Alike R (.op o cs i) (.op o ds j)

theorem Alike.imp {R S : V → V → Prop} (h : ∀ v w, R v w → S v w) {t u : Tree V} (ha : Alike R t u) : Alike S t u := by
  induction ha with
  | const g => exact .const (h _ _ g)
  | var => exact .var
  | op hl _ ih => exact .op hl ih

theorem Alike.trans {R S : V → V → Prop} {t u w : Tree V} (h : Alike R t u) :
    Alike S u w → Alike (fun a c => ∃ b, R a b ∧ S b c) t w := by
  induction h generalizing w with
  | const g => intro h; cases h with | const g' => exact .const ⟨_, g, g'⟩
  | var => intro h; cases h; exact .var
  | op hl _ ih =>
    intro h
    cases h with
    | op hl' h' => exact .op (hl.trans hl') fun k hk => ih k hk (h' k (hl ▸ hk))

/-- Trees of the same shape. -/
theorem alike_of_shape {t : Tree V} : ∀ {u : Tree V}, t.shape = u.shape → Alike Eq t u := by
  induction t using Tree.induct with
  | hc v i =>
    intro u h
    cases u with
    | const w j => simp only [Tree.shape, Tree.const.injEq, and_true] at h; exact .const h
    | var => simp [Tree.shape] at h
    | op => simp [Tree.shape] at h
  | hv n x i =>
    intro u h
    cases u with
    | var m y j => simp only [Tree.shape, Tree.var.injEq, and_true] at h; subst h; exact .var
    | const => simp [Tree.shape] at h
    | op => simp [Tree.shape] at h
  | ho o cs i ih =>
    intro u h
    cases u with
    | const => simp [Tree.shape] at h
    | var => simp [Tree.shape] at h
    | op p ds j =>
      simp only [Tree.shape, Tree.op.injEq, and_true] at h
      obtain ⟨rfl, h⟩ := h
      have hl : cs.length = ds.length := by simpa using congrArg List.length h
      refine .op hl fun k hk => ih _ (List.getElem_mem hk) ?_
      have := List.getElem_of_eq h (i := k) (by simpa using hk)
      simpa using this

/-- The text depends on constants only by how they are rendered. -/
theorem printTree_alike {fmt : V → Str} {fv : Str → Str} (t : Tree V) : ∀ {u : Tree V}, Alike (fun v w => fmt v = fmt w) t u →
    ∀ l r, printTree fmt fv t l r = printTree fmt fv u l r := by
  have isOp : ∀ (p : Op → Bool) {t u : Tree V}, Alike (fun v w => fmt v = fmt w) t u → t.isOpWith p = u.isOpWith p := by
    intro p t u h
    cases h <;> rfl
  induction t using Tree.induct with
  | hc v i => intro u h l r; cases h with | const h => simp [printTree, h]
  | hv n x i => intro u h l r; cases h; simp [printTree]
  | ho o cs i ih =>
    intro u h l r
    cases h with
    | @op _ _ ds _ j hl h =>
      rw [printTree.eq_def, printTree.eq_def fmt fv (.op o ds j)]
      dsimp only
      cases o.placement with
      | «prefix» =>
        match cs, ds, hl with
        | [], [], _ => rfl
        | c :: cs, d :: ds, _ =>
          have h0 := h 0 (by simp)
          simp only [List.getElem_cons_zero] at h0
          have hc := fun l r => ih c (by simp) h0 l r
          dsimp only
          simp only [prefixWraps, isOp _ h0, hc]
          congr
      | «postfix» =>
        match cs, ds, hl with
        | [], [], _ => rfl
        | c :: cs, d :: ds, _ =>
          have h0 := h 0 (by simp)
          simp only [List.getElem_cons_zero] at h0
          have hc := fun l r => ih c (by simp) h0 l r
          dsimp only
          simp only [postfixWraps, isOp _ h0, hc]
          congr
      | «infix» =>
        match cs, ds, hl with
        | [], [], _ => rfl
        | [c], [d], _ => rfl
        | a :: b :: cs, c :: d :: ds, _ =>
          have h0 := h 0 (by simp)
          have h1 := h 1 (by simp)
          simp only [List.getElem_cons_zero, List.getElem_cons_succ] at h0 h1
          have ha := fun l r => ih a (by simp) h0 l r
          have hb := fun l r => ih b (by simp) h1 l r
          dsimp only
          simp only [leftWraps, rightWraps, isOp _ h0, isOp _ h1, ha, hb]
          congr
      | «function» =>
        dsimp only
        have key : ∀ (cs ds : List (Tree V)) (hl : cs.length = ds.length), (∀ c ∈ cs, ∀ {u : Tree V},
            Alike (fun v w => fmt v = fmt w) c u → ∀ l r, printTree fmt fv c l r = printTree fmt fv u l r) →
            (∀ k (hk : k < cs.length), Alike (fun v w => fmt v = fmt w) cs[k] (ds[k]'(hl ▸ hk))) →
            printArgs fmt fv cs = printArgs fmt fv ds := by
          intro cs
          induction cs with
          | nil => intro ds hl _ _; match ds, hl with | [], _ => rfl
          | cons c cs ihc =>
            intro ds hl hi h
            match ds, hl with
            | d :: ds, hl =>
              have h0 := h 0 (by simp)
              simp only [List.getElem_cons_zero] at h0
              have hr := ihc ds (by simpa using hl) (fun c hc => hi c (by simp [hc])) fun k hk => by
                have := h (k + 1) (by simpa using hk)
                simpa using this
              rw [printArgs.eq_def, printArgs.eq_def fmt fv (d :: ds)]
              dsimp only
              rw [hi c (by simp) h0, hr]
              match cs, ds, hl with
              | [], [], _ => rfl
              | _ :: _, _ :: _, _ => rfl
        rw [key cs ds hl ih h]

/-- **C18**: the text of a tree depends on its constants only by their texts. -/
theorem C18_text_only {fmt : V → Str} {t u : Tree V} (h : Alike (fun v w => fmt v = fmt w) t u) :
    treeToStr fmt t = treeToStr fmt u := by
  unfold treeToStr
  rw [printTree_alike t h]

/-- As `ArithTree`, but constants may be read back as other ones that have the same text. -/
inductive RoundTree (E : Env) (strtod : Str → Option V) (fmt : V → Str) : Tree V → Prop where
  | const {v w i} : fmt v ≠ [] → (∀ ch ∈ fmt v, isDigit ch = true) → strtod (fmt v) = some w → fmt w = fmt v →
      RoundTree E strtod fmt (.const v i)
  | var {n x i} : n ≠ [] → (∀ ch ∈ n, isLetter ch = true) → E.lookup n .function = none →
      E.lookup n .infix = none → strtod n = none → RoundTree E strtod fmt (.var n x i)
  | op {o cs i} : E.lookup o.name o.placement = some o →
      (o.arity = .dyn ∨ o.arity = .fixed cs.length) →
      (∀ c ∈ cs, RoundTree E strtod fmt c) → RoundTree E strtod fmt (.op o cs i)

/-- Every constant replaced by what its text is read as. -/
theorem RoundTree.rounded {E : Env} {strtod : Str → Option V} {fmt : V → Str} {t : Tree V} (h : RoundTree E strtod fmt t) :
    ∃ u, ArithTree E strtod fmt u ∧ Alike (fun v w => fmt v = fmt w ∧ strtod (fmt v) = some w) t u := by
  induction h with
  | @const v w i h1 h2 h3 h4 =>
    exact ⟨.const w i, .const (h4 ▸ h1) (h4 ▸ h2) (h4 ▸ h3), .const ⟨h4.symm, h3⟩⟩
  | @var n x i h1 h2 h3 h4 h5 => exact ⟨.var n x i, .var h1 h2 h3 h4 h5, .var⟩
  | @op o cs i h1 h2 _ ih =>
    have key : ∀ cs : List (Tree V), (∀ c ∈ cs, ∃ u, ArithTree E strtod fmt u ∧
        Alike (fun v w => fmt v = fmt w ∧ strtod (fmt v) = some w) c u) →
        ∃ ds : List (Tree V), ∃ hl : cs.length = ds.length, (∀ d ∈ ds, ArithTree E strtod fmt d) ∧
          ∀ k (hk : k < cs.length), Alike (fun v w => fmt v = fmt w ∧ strtod (fmt v) = some w) cs[k] (ds[k]'(hl ▸ hk)) := by
      intro cs
      induction cs with
      | nil => intro _; exact ⟨[], rfl, by simp, by simp⟩
      | cons c cs ihc =>
        intro h
        obtain ⟨u, hu, hc⟩ := h c (by simp)
        obtain ⟨ds, hl, h1, h2⟩ := ihc fun c hc => h c (by simp [hc])
        refine ⟨u :: ds, by simp [hl], ?_, ?_⟩
        · intro d hd
          rcases List.mem_cons.1 hd with rfl | hd
          · exact hu
          · exact h1 d hd
        · intro k hk
          cases k with
          | zero => exact hc
          | succ k => exact h2 k (by simpa using hk)
    obtain ⟨ds, hl, g1, g2⟩ := key cs ih
    exact ⟨.op o ds i, .op h1 (hl ▸ h2) g1, .op hl g2⟩

/-- **C18** (partial: constants come back as their texts are read, which need not be the same).  In the calculator's context with
any user functions, tokenizing and parsing the printed text yields the tree with every constant replaced by what its text is
read as, and printing that tree yields the same text again. -/
theorem C18_rounded_partial (c : Ctx) (hc : ArithLike c) (strtod : Str → Option V) (fmt : V → Str)
    (t : Tree V) (ht : RoundTree c.env strtod fmt t) :
    ∃ s t', treeToStr fmt t = .ok s ∧ (parseInput c strtod s).2 = .ok t' ∧
      Alike (fun v w => strtod (fmt v) = some w) t t' ∧ treeToStr fmt t' = .ok s := by
  obtain ⟨u, hu, ha⟩ := ht.rounded
  obtain ⟨s, t', h1, h2, h3⟩ := C18_text_partial c hc strtod fmt u hu
  have hs : treeToStr fmt t = .ok s := by
    rw [C18_text_only (ha.imp fun _ _ h => h.1), h1]
  have ht' := ha.trans (alike_of_shape h3.symm)
  refine ⟨s, t', hs, h2, ht'.imp ?_, ?_⟩
  · rintro v w ⟨b, h, rfl⟩
    exact h.2
  · rw [← hs]
    refine (C18_text_only (ht'.imp ?_)).symm
    rintro v w ⟨b, h, rfl⟩
    exact h.1

/-- **C18**: why constants that are rounded are excluded.  Of two constants with the same text at most one comes back. -/
theorem C18_rounding_witness (c : Ctx) (strtod : Str → Option V) (fmt : V → Str) {v w : V} (hne : v ≠ w) (hf : fmt v = fmt w)
    (h : ∃ s t', treeToStr fmt (.const v 0) = .ok s ∧ (parseInput c strtod s).2 = .ok t' ∧ t'.shape = .const v 0) :
    ¬ ∃ s t', treeToStr fmt (.const w 0) = .ok s ∧ (parseInput c strtod s).2 = .ok t' ∧ t'.shape = .const w 0 := by
  rintro ⟨s', u', g1, g2, g3⟩
  obtain ⟨s, t', h1, h2, h3⟩ := h
  rw [C18_text_only (.const hf : Alike _ (.const v 0) (.const w 0)), g1] at h1
  cases h1
  rw [g2] at h2
  cases h2
  rw [g3] at h3
  cases h3
  exact hne rfl

/-- Numbers rendered without the last digit, as `%g` does with those beyond the tenth: 17 is printed `1`, read as 10. -/
def tens (n : Nat) : Str := dig (n / 10)
def readTens (s : Str) : Option Nat := (digit s).map (10 * ·)

/-- `17 mod x` is such a tree, and not one of those of `C18_text_partial`. -/
example : ∃ c, arithCtx = .ok c ∧ ArithLike c ∧ ∃ o : Op, o.name = "mod".toList ∧
    RoundTree c.env readTens tens (.op o [.const 17 0, .var "x".toList 0 0] 0) ∧ readTens (tens 17) = some 10 := by
  obtain ⟨c, hc, ha⟩ := arithCtx_ok
  refine ⟨c, hc, ha, ?_⟩
  have key : (match arithCtx with
    | .ok c => (match c.env.lookup "mod".toList .infix with
        | some o => o.name == "mod".toList && o.placement == .infix && o.arity == .fixed 2
        | none => false) && (c.env.lookup "x".toList .function).isNone && (c.env.lookup "x".toList .infix).isNone
    | _ => false) = true := by decide +kernel
  rw [hc] at key
  simp only [Bool.and_eq_true, Option.isNone_iff_eq_none] at key
  obtain ⟨⟨h1, h2⟩, h3⟩ := key
  cases ho : c.env.lookup "mod".toList .infix with
  | none => rw [ho] at h1; cases h1
  | some o =>
    rw [ho] at h1
    simp only [Bool.and_eq_true, beq_iff_eq] at h1
    obtain ⟨⟨g1, g2⟩, g3⟩ := h1
    refine ⟨o, g1, .op (by rw [g1, g2, ho]) (.inr g3) ?_, by decide⟩
    intro t ht
    simp only [List.mem_cons, List.not_mem_nil, or_false] at ht
    rcases ht with rfl | rfl
    · exact .const (w := 10) (by decide) (by decide) (by decide) (by decide)
    · exact .var (by decide) (by decide) h2 h3 (by decide)

end Verif.PrinterProps
