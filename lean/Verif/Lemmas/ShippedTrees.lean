import Verif.Lemmas.RuleFile

/-!
# The shipped rules are those of `ShippedParts`
-/

namespace Verif.Shipped
open Verif Verif.Rules
variable {V : Type}

theorem parts_data (k : Nat) : List.Forall₂ (fun r p => readData r = RuleParts.read p) (dataOf k) (partsOf k) := by
  have h := allRules_parts
  unfold allRules allParts at h
  have split : ∀ {a b : List RuleData} {c d : List RuleParts}, a.length = c.length →
      List.Forall₂ (fun r p => readData r = RuleParts.read p) (a ++ b) (c ++ d) →
      List.Forall₂ (fun r p => readData r = RuleParts.read p) a c ∧
      List.Forall₂ (fun r p => readData r = RuleParts.read p) b d := by
    intro a b c d hl h
    have h1 := List.forall₂_take a.length h
    have h2 := List.forall₂_drop a.length h
    rw [List.take_left' rfl, List.take_left' hl.symm] at h1
    rw [List.drop_left' rfl, List.drop_left' hl.symm] at h2
    exact ⟨h1, h2⟩
  obtain ⟨h, h6⟩ := split (by rfl) h
  obtain ⟨h, h5⟩ := split (by rfl) h
  obtain ⟨h, h4⟩ := split (by rfl) h
  obtain ⟨h, h3⟩ := split (by rfl) h
  obtain ⟨h, h2⟩ := split (by rfl) h
  obtain ⟨h0, h1⟩ := split (by rfl) h
  match k with
  | 0 => exact h0
  | 1 => exact h1
  | 2 => exact h2
  | 3 => exact h3
  | 4 => exact h4
  | 5 => exact h5
  | 6 => exact h6
  | _ + 7 => exact .nil

theorem accepted {r : RuleData} {p : RuleParts} (h : readData r = p.read) (hc : r.check = true) (f : ℚ → V) :
    parseRule (ruleParser f) r.text.toList = .ok (some (p.rule f)) := by
  rw [check_of_read h] at hc
  simp only [checkParts, Bool.and_eq_true, decide_eq_true_eq, List.all_eq_true, List.contains_iff_mem] at hc
  obtain ⟨⟨⟨⟨⟨⟨⟨⟨-, -⟩, -⟩, -⟩, h1⟩, h2⟩, h3⟩, -⟩, -⟩ := hc
  obtain ⟨pat, rule, g1, g2⟩ := accepted_of (l := p.left.mapVal f) (r := p.right.mapVal f)
    (cs := p.conds.map (Tree.mapVal f)) (by rwa [names_mapVal]) (by simpa using h2)
    (by simpa only [names_mapVal] using h3)
  have h4 := ruleParts_natural (ruleParser_natural f (fun q => q)) h
  rw [parseRule_parts _ _ h4]
  simp only [g1, g2, RuleParts.rule, Option.getD_some, Res.pure_eq]

theorem accepted_all {k : Nat} {d : RuleData} {p : RuleParts} (f : ℚ → V) (h : readData d = p.read) (hd : d ∈ dataOf k) :
    parseRule (ruleParser f) d.text.toList = .ok (some (p.rule f)) := by
  refine accepted h (allRules_check d ?_) f
  match k, hd with
  | 0, h | 1, h | 2, h | 3, h | 4, h | 5, h | 6, h => simp only [allRules, List.mem_append]; simp only [dataOf] at h; simp [h]
  | _ + 7, h => cases h

/-- The shipped rule file is read as `rulesAt`. -/
theorem rulesAt_shipped (f : ℚ → V) : parseRulesets (ruleParser f) numRulesets shippedText = .ok (7, rulesAt f) := by
  classical
  let R : Str → RewriteRule V := fun s =>
    match parseRule (ruleParser f) s with
    | .ok (some r) => r
    | _ => RuleParts.rule f p0_0
  have hR : ∀ k, ∀ d ∈ dataOf k, parseRule (ruleParser f) d.text.toList = .ok (some (R d.text.toList)) := by
    intro k d hd
    obtain ⟨i, hi, rfl⟩ := List.getElem_of_mem hd
    have h2 := List.Forall₂.get (parts_data k) hi ((parts_data k).length_eq ▸ hi)
    have h3 := accepted_all f h2 hd
    simp only [List.get_eq_getElem] at h3
    simp only [R, h3]
  refine (rulesetsLoop_lines (R := R) _ _ _ _ shipped_lines ?_).trans ?_
  · intro l hl
    simp only [dataTexts, List.mem_flatMap] at hl
    obtain ⟨k, -, hl⟩ := hl
    obtain ⟨d, hd, rfl⟩ := List.mem_map.1 hl
    exact hR k d hd
  · congr 2
    funext k
    have e : ((dataTexts.filter fun l => l.1 == k).map fun l => R l.2)
        = (dataOf k).map fun d => R d.text.toList := by
      have := congrArg (List.map R) (filter_texts k)
      simpa only [List.map_map, Function.comp_def] using this
    rw [List.nil_append, e, rulesAt]
    have h := parts_data k
    have hk := hR k
    have aux : ∀ (a : List RuleData) (b : List RuleParts), List.Forall₂ (fun r p => readData r = RuleParts.read p) a b →
        (∀ d ∈ a, d ∈ dataOf k) → a.map (fun d => R d.text.toList) = b.map (RuleParts.rule f) := by
      intro a b hab
      induction hab with
      | nil => intro _; rfl
      | @cons r p a b h1 h2 ih =>
        intro hm
        simp only [List.map_cons]
        rw [ih fun d hd => hm d (by simp [hd])]
        have h3 := accepted_all f h1 (hm r (by simp))
        rw [hk r (hm r (by simp))] at h3
        simp only [Res.ok.injEq, Option.some.injEq] at h3
        rw [h3]
    exact aux _ _ h fun d hd => hd

end Verif.Shipped
