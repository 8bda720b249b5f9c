import Verif.Lemmas.TableOutput

/-!
# The variables of results
-/

namespace Verif
open ParserProps SessionProps HelpProps TableProps
variable {V ε ρ : Type}

/-- The variables of a parsed expression are no operators and no numbers. -/
theorem parse_free {E : Env} {strtod : Str → Option V} {tokens : List Str} {t : Tree V}
    (h : parseTokens E strtod tokens = .ok t) : ∀ n ∈ t.names, E.lookup n .function = none ∧ E.lookup n .infix = none ∧ strtod n = none := by
  refine parseIdx_good (Q := fun t => ∀ n ∈ t.names, E.lookup n .function = none ∧ E.lookup n .infix = none ∧ strtod n = none)
    (D := fun _ => True) ?_ h
  refine ⟨?_, ?_, ?_, ?_, ?_, ?_, ?_⟩
  · intros; simp_all [Tree.names]
  · intro i tok hm a b c d e f n hn
    simp only [Tree.names, List.mem_singleton] at hn
    subst hn
    exact ⟨c, e, a⟩
  · intros; trivial
  · intros; trivial
  · intros; trivial
  · intros; trivial
  · intro o d cs _ _ ha _ hc n hn
    simp only [Tree.names] at hn
    obtain ⟨c, hc', hn⟩ := namesList_mem.1 hn
    exact hc c hc' n hn

/-- Simplification makes no variables but `z`. -/
def SimpNames (K : Client V ε ρ) : Prop :=
  ∀ w h t w' u, AllOps BuiltIn t → K.simp w h t = .ok (w', .ok u) → ∀ n ∈ u.names, n ∈ t.names ∨ n = "z".toList

theorem SimpNames.words {K : Client V ε ρ} (h : SimpNames K) : SimpWords K := by
  intro w hi t w' u ht hw hs n hn
  rcases h w hi t w' u ht hs n hn with h | rfl
  · exact hw n h
  · decide

/-- What is left of an expression: operators of the calculator only, and variables of the expression (or `z`). -/
theorem arithParse_names {K : Client V ε ρ} (hK : SimpKeeps K) (hN : SimpNames K) (hf : K.fuel < sizeMax) {s s' : Session V ρ}
    {D : List (FunDef V)} (h : Sess s D) (ht : Tidy s) {i : Str} {t : Tree V} (he : arithParse K s i = .ok (s', some t)) :
    AllOps BuiltIn t ∧ ∃ raw, parseEasy s.ctx K.strtod i = .ok (some raw) ∧ ∀ n ∈ t.names, n ∈ raw.names ∨ n = "z".toList := by
  unfold arithParse at he
  obtain ⟨o, h1, he⟩ := Out.bind_eq_ok.1 he
  have h1 := Out.of_eq_ok.1 h1
  cases o with
  | none => cases he
  | some raw =>
    obtain ⟨⟨w, r⟩, h2, he⟩ := Out.bind_eq_ok.1 he
    simp only [Out.pure_eq, Out.ok.injEq, Prod.mk.injEq] at he
    obtain ⟨-, rfl⟩ := he
    have hk := parse_known h.ctx h.arity h1
    refine ⟨arithSimplify_ops hK hf h ht hk h2, raw, h1, ?_⟩
    unfold arithSimplify at h2
    obtain ⟨⟨t', n⟩, g1, he⟩ := Out.bind_eq_ok.1 h2
    obtain ⟨⟨w2, r⟩, g2, he⟩ := Out.bind_eq_ok.1 he
    have h1' : applyRuleset K.eqV (fun _ => true) s.funs sizeMax K.fuel raw = .ok (some (t', n)) := by
      revert g1
      cases applyRuleset K.eqV (fun _ => true) s.funs sizeMax K.fuel raw with
      | ok x => cases x <;> simp [Out.ofFuel]
      | defect => simp [Out.ofFuel]
      | ub => simp [Out.ofFuel]
    obtain ⟨-, h3⟩ := expand_ok (h.table ht) h.rules _ _ sizeMax K.fuel 0 raw t' n hk (by omega) h1'
    have h4 : ∀ x ∈ t'.names, x ∈ raw.names := fun x hx => by
      refine applyLoop_names (fun r hr => ?_) _ _ _ _ _ h1' x hx
      obtain ⟨d, -, hd⟩ := forall2_left h.rules hr
      obtain ⟨cs, tok, -, ha⟩ := hd.accepted
      exact ⟨_, _, _, ha⟩
    cases r with
    | error e => simp at he
    | ok v =>
      simp only [Out.pure_eq, Out.ok.injEq, Prod.mk.injEq, Option.some.injEq] at he
      obtain ⟨rfl, rfl⟩ := he
      intro x hx
      exact (hN _ _ _ _ _ h3 g2 x hx).imp_left (h4 x)

/-- The operators of the calculator are found by name. -/
theorem builtIn_lookup {o : Op} {n : Nat} (h : BuiltIn o n) (us : List Op) : (arithEnv us).lookup o.name o.placement = some o := by
  obtain ⟨⟨q, hq, he⟩, -⟩ := h
  have hm : (o.id, o) ∈ builtin := by
    unfold builtin
    rw [List.mem_map]
    exact ⟨(q, o.id), List.mem_zipIdx_iff_getElem?.2 hq, by rw [← he]⟩
  have key : ∀ p ∈ builtin, (builtin.map (·.2)).find? (fun o => o.name == p.2.name && o.placement == p.2.placement) = some p.2 := by
    decide +kernel
  simp only [arithEnv, List.find?_append, key _ hm]
  rfl

end Verif
