import Verif.Lemmas.RuleChecks
import Verif.Model.ShippedRules
import Verif.Lemmas.StringChars

/-!
# The rule file: which lines are rules
-/

namespace Verif.Rules
open Verif
variable {V : Type}

/-- The lines of rules in a file, with the index of their ruleset, and the last index. -/
def ruleLines (bufferSize : Nat) : List Str → Int → Option (Int × List (Nat × Str))
  | [], curr => some (curr + 1, [])
  | raw :: rest, curr =>
    match prepareLine raw with
    | .ok line =>
      if beginsWith "RULESET".toList line then ruleLines bufferSize rest (curr + 1)
      else if curr = bufferSize then none
      else if line.isEmpty then ruleLines bufferSize rest curr
      else if curr = -1 then ruleLines bufferSize rest curr
      else if curr > bufferSize then none
      else (ruleLines bufferSize rest curr).map fun x => (x.1, (curr.toNat, line) :: x.2)
    | _ => none

theorem rulesetsLoop_lines {parse : Str → Res (Option (Tree V))} {R : Str → RewriteRule V}
    (bufferSize : Nat) (lines : List Str) (curr : Int) (out : Nat → List (RewriteRule V)) {n : Int} {ls : List (Nat × Str)}
    (h : ruleLines bufferSize lines curr = some (n, ls))
    (hR : ∀ l ∈ ls, parseRule parse l.2 = .ok (some (R l.2))) :
    rulesetsLoop parse bufferSize lines curr out = .ok (n, fun k =>
      out k ++ (ls.filter fun l => l.1 == k).map fun l => R l.2) := by
  induction lines generalizing curr out n ls with
  | nil =>
    simp only [ruleLines, Option.some.injEq, Prod.mk.injEq] at h
    obtain ⟨rfl, rfl⟩ := h
    simp [rulesetsLoop]
  | cons raw rest ih =>
    unfold ruleLines at h
    unfold rulesetsLoop
    cases hp : prepareLine raw with
    | ok line =>
      rw [hp] at h
      simp only at h
      show (if _ then _ else _) = _
      by_cases h1 : beginsWith "RULESET".toList line = true
      · rw [if_pos h1] at h ⊢
        exact ih _ _ h hR
      · rw [if_neg h1] at h ⊢
        by_cases h2 : curr = bufferSize
        · rw [if_pos h2] at h; cases h
        · rw [if_neg h2] at h ⊢
          by_cases h3 : line.isEmpty = true
          · rw [if_pos h3] at h ⊢
            exact ih _ _ h hR
          · rw [if_neg h3] at h ⊢
            by_cases h4 : curr = -1
            · rw [if_pos h4] at h ⊢
              exact ih _ _ h hR
            · rw [if_neg h4] at h ⊢
              by_cases h5 : curr > bufferSize
              · rw [if_pos h5] at h; cases h
              · rw [if_neg h5] at h ⊢
                obtain ⟨⟨m, ls'⟩, hm, he⟩ := Option.map_eq_some_iff.1 h
                simp only [Prod.mk.injEq] at he
                obtain ⟨rfl, rfl⟩ := he
                have := hR (curr.toNat, line) (by simp)
                simp only at this
                rw [this]
                show rulesetsLoop _ _ _ _ _ = _
                rw [ih _ _ hm fun l hl => hR l (by simp [hl])]
                congr 2
                funext k
                by_cases hk : k = curr.toNat
                · subst hk; simp
                · have : (curr.toNat == k) = false := by simpa using fun e => hk e.symm
                  simp [hk, this]
    | ub => rw [hp] at h; cases h
    | defect => rw [hp] at h; cases h

/-- The rulesets, as data. -/
def dataOf : Nat → List RuleData
  | 0 => ruleset0 | 1 => ruleset1 | 2 => ruleset2 | 3 => ruleset3
  | 4 => ruleset4 | 5 => ruleset5 | 6 => ruleset6 | _ => []

def dataTexts : List (Nat × Str) := (List.range 7).flatMap fun k => (dataOf k).map fun r => (k, r.text.toList)

set_option maxRecDepth 20000 in
theorem shipped_lines : ruleLines numRulesets (getlines shippedText) (-1) = some (7, dataTexts) := by
  unfold shippedText dataTexts
  simp only [shippedLines, List.range, List.range.loop, List.flatMap_cons, List.flatMap_nil, dataOf, ruleset0,
    ruleset1, ruleset2, ruleset3, ruleset4, ruleset5, ruleset6, List.map_cons, List.map_nil, r0_0, r0_1, r0_2,
    r0_3, r0_4, r0_5, r0_6, r0_7, r0_8, r0_9, r0_10, r0_11, r0_12, r0_13, r1_0, r1_1, r1_2, r1_3, r1_4, r1_5,
    r1_6, r1_7, r1_8, r1_9, r1_10, r1_11, r1_12, r1_13, r1_14, r1_15, r1_16, r1_17, r1_18, r1_19, r1_20, r1_21,
    r1_22, r2_0, r2_1, r2_2, r2_3, r2_4, r2_5, r2_6, r2_7, r2_8, r2_9, r2_10, r2_11, r2_12, r3_0, r3_1, r3_2,
    r3_3, r3_4, r3_5, r3_6, r3_7, r3_8, r3_9, r3_10, r3_11, r3_12, r3_13, r3_14, r3_15, r3_16, r3_17, r3_18,
    r3_19, r3_20, r3_21, r3_22, r3_23, r3_24, r3_25, r3_26, r3_27, r3_28, r3_29, r3_30, r3_31, r3_32, r3_33,
    r3_34, r3_35, r3_36, r3_37, r3_38, r3_39, r3_40, r3_41, r3_42, r3_43, r3_44, r3_45, r3_46, r3_47, r3_48,
    r3_49, r3_50, r4_0, r4_1, r4_2, r4_3, r4_4, r4_5, r4_6, r4_7, r4_8, r4_9, r5_0, r5_1, r5_2, r5_3, r5_4,
    r5_5, r5_6, r5_7, r5_8, r5_9, r5_10, r5_11, r5_12, r5_13, r5_14, r5_15, r5_16, r5_17, r5_18, r5_19, r5_20,
    r5_21, r5_22, r6_0, literalChars]
  decide +kernel

theorem filter_texts (k : Nat) : ((dataTexts.filter fun l => l.1 == k).map fun l => l.2)
    = (dataOf k).map fun r => r.text.toList := by
  have h : ∀ j, ((dataOf j).map fun r => (j, r.text.toList)).filter (fun l => l.1 == k)
      = if j = k then (dataOf j).map fun r => (j, r.text.toList) else [] := by
    intro j
    by_cases e : j = k
    · subst e
      simp [List.filter_map, Function.comp_def]
    · simp [List.filter_map, e]
  simp only [dataTexts, List.filter_flatMap, h]
  by_cases hk : k < 7
  · have : k = 0 ∨ k = 1 ∨ k = 2 ∨ k = 3 ∨ k = 4 ∨ k = 5 ∨ k = 6 := by omega
    rcases this with rfl | rfl | rfl | rfl | rfl | rfl | rfl <;>
      simp [List.range, List.range.loop, List.map_map, Function.comp_def]
  · have : dataOf k = [] := by
      match k, hk with
      | k + 7, _ => rfl
      | 0, h | 1, h | 2, h | 3, h | 4, h | 5, h | 6, h => exact absurd (by decide) h
    rw [this]
    simp only [List.map_nil, List.map_eq_nil_iff, List.flatMap_eq_nil_iff, List.mem_range]
    intro j hj
    rw [if_neg (by omega)]

end Verif.Rules
