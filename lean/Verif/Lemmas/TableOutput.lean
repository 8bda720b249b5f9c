import Verif.Model.TableOutput
import Verif.Spec.TableOutput
import Verif.Lemmas.Texts
import Verif.Props.Table
import Verif.Props.Rewrite

/-!
# Lemmas for the text of the table command
-/

namespace Verif
open Layout LayoutSpec Drawing DrawingSpec LayoutProps SessionProps TableSpec HelpProps ParserProps
variable {V ε ρ : Type}

/-! ## Calls -/

/-- The calls are those for rows of texts. -/
theorem table_calls (interactive : Bool) (fixed : V → Str) (var : Option Str) (title : Str) (rows : List (TableRow V)) :
    headerCalls interactive var title ++ allCells interactive fixed 1 rows =
      rowCalls (tableCells interactive fixed (var.map fun n => varColor ++ spaced n ++ colReset) title rows) := by
  have key : ∀ (rows : List (TableRow V)) (k : Nat), allCells interactive fixed (k + 1) rows =
      rowCalls (if interactive then (rows.zipIdx k).map fun (r, i) =>
        [some (spaced (toString (i + 1)).toList), some (spaced (fixed r.pos)), some (spaced (valueText fixed r.value))]
        else rows.map fun r => [some (spaced (fixed r.pos)), some (spaced (valueText fixed r.value))]) := by
    intro rows
    induction rows with
    | nil => intro k; cases interactive <;> rfl
    | cons r rows ih =>
      intro k
      rw [allCells, ih (k + 1)]
      have ed : (toString (k + 1)).toList = Nat.toDigits 10 (k + 1) := by
        show (Nat.repr (k + 1)).toList = _
        simp [Nat.repr]
      cases interactive <;> cases hv : r.value <;> simp [rowCells, rowCalls, spaced, valueText, hv, ed]
  have := key rows 0
  simp only [Nat.zero_add] at this
  rw [this]
  cases interactive
  · simp [headerCalls, tableCells]
  · cases var <;> simp [headerCalls, tableCells, rowCalls, spaced]

/-! ## Texts -/

theorem plain_spaced {s : Str} (h : Plain s) : TidyLine true (spaced s) := by
  refine char_tidy fun c hc => ?_
  simp only [spaced, List.cons_append, List.mem_cons, List.mem_append, List.not_mem_nil, or_false] at hc
  rcases hc with rfl | hc | rfl
  · decide
  · have := h.2 c hc
    refine ⟨?_, ?_, by omega⟩
    · rintro rfl; simp at this
    · rintro rfl; revert this; decide
  · decide

/-- A text that is appended does not disturb as long as it starts with a character. -/
theorem tidy_append {b : Bool} {s : Str} (h : TidyLine b s) {c : Char} (hc : c ≠ Char.ofNat 27 ∧ c ≠ '\n' ∧ c.toNat < 128) {u : Str}
    (hu : TidyLine true u) : TidyLine b (s ++ c :: u) := by
  induction h with
  | nil => exact .char hc.1 hc.2.1 hc.2.2 hu
  | char h1 h2 h3 _ ih => exact .char h1 h2 h3 ih
  | escape h1 _ ih =>
    rw [List.cons_append, List.append_assoc, List.cons_append]
    exact .escape h1 ih

theorem tidy_spaced {s : Str} (h : TidyLine true s) : TidyLine true (spaced s) :=
  .char (by decide) (by decide) (by decide) (tidy_append h (by decide) .nil)

/-- The name of the variable in the header. -/
theorem tidy_var {n : Str} (h : Plain n) : TidyLine true (varColor ++ spaced n ++ colReset) := by
  have e : varColor ++ spaced n ++ colReset = Char.ofNat 27 :: ("[1;36".toList ++ 'm' :: (' ' :: (n ++ ' ' :: (Char.ofNat 27 :: ("[0".toList ++ 'm' :: []))))) := by
    simp [varColor, colReset, spaced, esc]
  rw [e]
  refine .escape (by decide) (.char (by decide) (by decide) (by decide) ?_)
  refine tidy_append ?_ (by decide) (.escape (by decide) .nil)
  have := plain_spaced h
  unfold spaced at this
  refine char_tidy fun c hc => ?_
  have := h.2 c hc
  refine ⟨?_, ?_, by omega⟩
  · rintro rfl; simp at this
  · rintro rfl; revert this; decide

/-! ## Names -/

/-- Simplification makes no names that are not words. -/
def SimpWords (K : Client V ε ρ) : Prop :=
  ∀ w h t w' u, AllOps BuiltIn t → (∀ n ∈ t.names, isWord n = true) → K.simp w h t = .ok (w', .ok u) →
    ∀ n ∈ u.names, isWord n = true

theorem applyLoop_names {eqV : V → V → Bool} {checker : Tree V → Bool} {rules : List (RewriteRule V)} {cap : Nat}
    (hr : ∀ r ∈ rules, ∃ before cs after, RewriteProps.Accepted before cs after r) : ∀ (fuel counter : Nat) (t u : Tree V) (n : Nat),
      applyLoop eqV checker rules cap fuel counter t = .ok (some (u, n)) → ∀ x ∈ u.names, x ∈ t.names := by
  have first : ∀ (rs : List (RewriteRule V)), (∀ r ∈ rs, ∃ before cs after, RewriteProps.Accepted before cs after r) → ∀ t t' : Tree V,
      applyFirst eqV checker rs t = .ok (some t') → ∀ x ∈ t'.names, x ∈ t.names := by
    intro rs
    induction rs with
    | nil => intro _ t t' h; cases h
    | cons r rs ih =>
      intro hr t t' h
      rw [applyFirst] at h
      obtain ⟨o, h1, h2⟩ := Res.bind_eq_ok.1 h
      cases o with
      | none => exact ih (fun r h => hr r (by simp [h])) t t' h2
      | some v =>
        simp only [Res.pure_eq, Res.ok.injEq, Option.some.injEq] at h2
        subst h2
        obtain ⟨b, cs, a, hacc⟩ := hr r (by simp)
        have := RewriteProps.C30_variables hacc eqV checker t v h1
        simpa only [varNames_eq] using this
  intro fuel
  induction fuel with
  | zero => intro counter t u n h; cases h
  | succ fuel ih =>
    intro counter t u n h
    rw [applyLoop] at h
    obtain ⟨o, h1, h2⟩ := Res.bind_eq_ok.1 h
    cases o with
    | none =>
      simp only [Res.pure_eq, Res.ok.injEq, Option.some.injEq, Prod.mk.injEq] at h2
      obtain ⟨rfl, -⟩ := h2
      exact fun _ h => h
    | some v =>
      dsimp only at h2
      split at h2
      · simp only [Res.pure_eq, Res.ok.injEq, Option.some.injEq, Prod.mk.injEq] at h2
        obtain ⟨rfl, -⟩ := h2
        exact first rules hr t _ h1
      · exact fun x hx => first rules hr t v h1 x (ih _ _ _ _ h2 x hx)

/-- Names stay words. -/
theorem arithSimplify_words {K : Client V ε ρ} (hK : SimpWords K) (hf : K.fuel < sizeMax) {s : Session V ρ}
    {D : List (FunDef V)} (h : Sess s D) (ht : Tidy s) {t u : Tree V} {w w' : ρ} {hist : List V}
    (hk : AllOps (Known D) t) (hw : ∀ n ∈ t.names, isWord n = true) (he : arithSimplify K s.funs hist w t = .ok (w', some u)) :
    ∀ n ∈ u.names, isWord n = true := by
  unfold arithSimplify at he
  obtain ⟨⟨t', n⟩, h1, he⟩ := Out.bind_eq_ok.1 he
  obtain ⟨⟨w2, r⟩, h2, he⟩ := Out.bind_eq_ok.1 he
  have h1' : applyRuleset K.eqV (fun _ => true) s.funs sizeMax K.fuel t = .ok (some (t', n)) := by
    revert h1
    cases applyRuleset K.eqV (fun _ => true) s.funs sizeMax K.fuel t with
    | ok x => cases x <;> simp [Out.ofFuel]
    | defect => simp [Out.ofFuel]
    | ub => simp [Out.ofFuel]
  obtain ⟨-, h3⟩ := expand_ok (h.table ht) h.rules _ _ sizeMax K.fuel 0 t t' n hk (by omega) h1'
  have h4 : ∀ x ∈ t'.names, isWord x = true := fun x hx => by
    refine hw x (applyLoop_names (fun r hr => ?_) _ _ _ _ _ h1' x hx)
    obtain ⟨d, -, hd⟩ := forall2_left h.rules hr
    obtain ⟨cs, tok, -, ha⟩ := hd.accepted
    exact ⟨_, _, _, ha⟩
  cases r with
  | error e => simp at he
  | ok v =>
    simp only [Out.pure_eq, Out.ok.injEq, Prod.mk.injEq, Option.some.injEq] at he
    obtain ⟨rfl, rfl⟩ := he
    exact hK _ _ _ _ _ h3 h4 h2

theorem arithParse_words {K : Client V ε ρ} (hK : SimpWords K) (hf : K.fuel < sizeMax) {s s' : Session V ρ}
    {D : List (FunDef V)} (h : Sess s D) (ht : Tidy s) {i : Str} {t : Tree V} (he : arithParse K s i = .ok (s', some t)) :
    ∀ n ∈ t.names, isWord n = true := by
  unfold arithParse at he
  obtain ⟨o, h1, he⟩ := Out.bind_eq_ok.1 he
  have h1 := Out.of_eq_ok.1 h1
  cases o with
  | none => cases he
  | some raw =>
    obtain ⟨⟨w, r⟩, h2, he⟩ := Out.bind_eq_ok.1 he
    simp only [Out.pure_eq, Out.ok.injEq, Prod.mk.injEq] at he
    obtain ⟨-, rfl⟩ := he
    exact arithSimplify_words hK hf h ht (parse_known h.ctx h.arity h1) (parse_words h.ctx h1) h2

/-! ## Expressions as they were entered -/

theorem known_prints {D : List (FunDef V)} (hu : ∀ d ∈ D, UserFn d.op) {o : Op} {n : Nat} (h : Known D o n) :
    Plain o.name ∧ Prints o n := by
  rcases h with h | ⟨d, hd, rfl, -⟩
  · exact builtIn_prints h
  · have := hu d hd
    refine ⟨isWord_plain this.name, ?_⟩
    rw [Prints, this.placement]
    trivial

/-- An expression that was entered can be printed, with and without colours. -/
theorem parsed_title {c : Ctx} {D : List (FunDef V)} (h : Holds c (D.map (·.op)))
    (har : ∀ d ∈ D, d.op.arity = .fixed d.params.length) {strtod : Str → Option V} {s : Str} {t : Tree V}
    (hp : parseEasy c strtod s = .ok (some t)) {general : V → Str} (hg : ∀ v, Plain (general v)) :
    ∃ x, treeToStrColor general t = .ok x ∧ treeToStr general t = .ok (seen x) ∧ TidyLine true x := by
  have hk := parse_known h har hp
  have hu : ∀ d ∈ D, UserFn d.op := fun d hd => h.user _ (List.mem_map_of_mem hd)
  have htx : Texts general Plain t := texts_of hg t (hk.mono fun _ _ h => (known_prints hu h).1)
    fun n hn => isWord_plain (parse_words h hp n hn)
  have hne : Texts general NoEscape t := by
    refine texts_of (fun v e => absurd ((hg v).2 _ e).1 (by decide)) t (hk.mono fun _ _ h e => ?_) fun n hn e => ?_
    · exact absurd ((known_prints hu h).1.2 _ e).1 (by decide)
    · exact absurd ((isWord_plain (parse_words h hp n hn)).2 _ e).1 (by decide)
  obtain ⟨ps, hps⟩ := tree_prints (colConst general) colVar t (hk.mono fun _ _ h => (known_prints hu h).2) false false
  have e : treeToStrColor general t = .ok ps.flatten := by rw [treeToStrColor, hps]; rfl
  exact ⟨_, e, (DrawingProps.C85_same_text general t hne).2 _ e, (DrawingProps.C85_width general t htx _ e).1⟩

end Verif
