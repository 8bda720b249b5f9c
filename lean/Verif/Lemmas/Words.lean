import Verif.Props.Session

/-!
# Names of variables

Variables of parsed expressions are words, and so are the parameters of functions.
-/

namespace Verif
open ParserProps SessionProps
variable {V ε ρ : Type}

/-- The variables of a parsed expression start with a letter. -/
theorem parse_letters {E : Env} {strtod : Str → Option V} {tokens : List Str} {t : Tree V}
    (h : parseTokens E strtod tokens = .ok t) : ∀ n ∈ t.names, headIs isLetter n = true := by
  refine parseIdx_good (Q := fun t => ∀ n ∈ t.names, headIs isLetter n = true) (D := fun _ => True) ?_ h
  refine ⟨?_, ?_, ?_, ?_, ?_, ?_, ?_⟩
  · intros; simp_all [Tree.names]
  · intro i tok hm a b c d e f n hn
    simp only [Tree.names, List.mem_singleton] at hn
    subst hn
    assumption
  · intros; trivial
  · intros; trivial
  · intros; trivial
  · intros; trivial
  · intro o d cs _ _ ha _ hc n hn
    simp only [Tree.names] at hn
    obtain ⟨c, hc', hn⟩ := namesList_mem.1 hn
    exact hc c hc' n hn

/-- The variables of a parsed expression are words. -/
theorem parse_words {c : Ctx} {us : List Op} (h : Holds c us) {strtod : Str → Option V} {s : Str} {t : Tree V}
    (hp : parseEasy c strtod s = .ok (some t)) : ∀ n ∈ t.names, isWord n = true := by
  rw [parseEasy_ok] at hp
  intro n hn
  exact canon_word (C08_calculator c h.like s) n (parse_vars hp n hn) (parse_letters hp n hn)

/-- The parameters of functions are words. -/
theorem SessionProps.Reach.params_words {K : Client V ε ρ} {P : Session V ρ → Str → Prop} {C : Str → Prop} {s : Session V ρ}
    (h : Reach K P C s) : ∀ r ∈ s.funs, ∀ n ∈ r.pattern.tree.names, isWord n = true := by
  induction h with
  | @start w s h =>
    have hs := initSession_sess h
    have hfuns : s.funs = [] := by simpa using hs.rules.length_eq
    simp [hfuns]
  | @define s s' input r h0 _ _ h3 ih =>
    obtain ⟨D, hD⟩ := h0.sess
    rcases definitionExec_spec hD h3 with ⟨-, h⟩ | ⟨-, d, -, h, hd, rule, hr⟩
    · rw [h.funs]; exact ih
    · intro q hq n hn
      rw [hr] at hq
      rcases List.mem_append.1 hq with hq | hq
      · exact ih q hq n hn
      · simp only [List.mem_singleton] at hq
        subst hq
        have hrd : IsDef q d := by
          have := h.rules
          rw [hr] at this
          have := (List.forall₂_iff_get.mp this).2 s.funs.length (by simp) (by simp [hD.rules.length_eq])
          simpa [hD.rules.length_eq] using this
        obtain ⟨k, -, -, ⟨c, o, p, cs, i, hc, -, -, -, hp, hv⟩, -⟩ := hd.text
        rw [hrd.params] at hn
        exact parse_words hc hp n (by simp only [Tree.names, names_vars hv]; exact hn)
  | @clear s s' input r h0 _ _ h3 ih =>
    obtain ⟨D, hD⟩ := h0.sess
    by_cases hi : input = clearCommand
    · subst hi
      obtain ⟨c, h1, h2⟩ := clearExec_all hD
      rw [h1] at h3
      simp only [Res.ok.injEq, Prod.mk.injEq] at h3
      obtain ⟨rfl, -⟩ := h3
      simp
    · rcases clearExec_one hD hi with ⟨h1, -⟩ | ⟨s2, d, h1, -, -, -, -, h2⟩
      · rw [h1] at h3
        simp only [Res.ok.injEq, Prod.mk.injEq] at h3
        obtain ⟨rfl, -⟩ := h3
        exact ih
      · rw [h1] at h3
        simp only [Res.ok.injEq, Prod.mk.injEq] at h3
        obtain ⟨rfl, -⟩ := h3
        intro q hq n hn
        obtain ⟨e, he, hqe⟩ := forall2_left h2.rules hq
        obtain ⟨q', hq', hqe'⟩ := forall2_right hD.rules (List.mem_of_mem_filter he)
        refine ih q' hq' n ?_
        rw [hqe'.params, ← hqe.params]
        exact hn
  | evaluate _ h1 ih =>
    obtain ⟨-, h3, -⟩ := evaluationExec_spec h1
    rw [h3]; exact ih
  | outside h w _ ih => exact ih

end Verif
