import Verif.Lemmas.RuleCheck1
import Verif.Lemmas.RuleCheck2
import Verif.Lemmas.RuleCheck3
import Verif.Lemmas.RuleCheck4

/-! # The texts of the rules are read as the data say -/

namespace Verif.Rules
open Shipped

def allRules : List RuleData := ruleset0 ++ ruleset1 ++ ruleset2 ++ ruleset3 ++ ruleset4 ++ ruleset5 ++ ruleset6

def allParts : List RuleParts := parts0 ++ parts1 ++ parts2 ++ parts3 ++ parts4 ++ parts5 ++ parts6

theorem read_append {a b : List RuleData} {c d : List RuleParts} (h : a.map readData = c.map RuleParts.read)
    (h' : b.map readData = d.map RuleParts.read) : (a ++ b).map readData = (c ++ d).map RuleParts.read := by
  rw [List.map_append, List.map_append, h, h']

/-- All texts are read as these trees. -/
theorem allRules_read : allRules.map readData = allParts.map RuleParts.read := by
  have h := read_append read1_0 (read_append read1_1 (read_append read1_2 (read_append read1_3 (read_append
    read1_4 (read_append read1_5 (read_append read2_0 (read_append read2_1 (read_append read2_2
    (read_append read3_0 (read_append read3_1 (read_append read3_2 (read_append read4_0 (read_append
    read4_1 (read_append read4_2 (read_append read4_3 (read4_4))))))))))))))))
  exact h

/-- `RuleData.check` after the text has been read. -/
def checkParts (r : RuleData) (p : RuleParts) : Bool :=
  same p.left r.left && sames p.conds (r.conds.map Cond.pat) && same p.right r.right && r.left.isApp &&
    decide ((addNew [] p.left.names).length ≤ maxMappedVars) && decide (p.conds.length ≤ maxConstraints) &&
    (p.right.names.all fun n => p.left.names.contains n) &&
    (p.conds.isEmpty || !p.left.names.isEmpty) &&
    (p.conds.all fun c => c.names.all fun n => p.left.names.contains n)

theorem check_of_read {r : RuleData} {p : RuleParts} (h : readData r = p.read) : r.check = checkParts r p := by
  unfold readData RuleParts.read at h
  unfold RuleData.check
  rw [h]
  rfl

theorem allRules_parts : List.Forall₂ (fun r p => readData r = RuleParts.read p) allRules allParts := by
  have h := allRules_read
  have aux : ∀ (a : List RuleData) (b : List RuleParts), a.map readData = b.map RuleParts.read →
      List.Forall₂ (fun r p => readData r = RuleParts.read p) a b := by
    intro a
    induction a with
    | nil => intro b h; cases b with | nil => exact .nil | cons => cases h
    | cons x a ih =>
      intro b h
      cases b with
      | nil => cases h
      | cons y b =>
        simp only [List.map_cons, List.cons.injEq] at h
        exact .cons h.1 (ih b h.2)
  exact aux _ _ h

theorem allRules_check : ∀ r ∈ allRules, r.check = true := by
  have h : ∀ x ∈ allRules.zip allParts, checkParts x.1 x.2 = true := List.all_eq_true.1 (by decide +kernel)
  intro r hr
  obtain ⟨i, hi, rfl⟩ := List.getElem_of_mem hr
  have hi' : i < allParts.length := allRules_parts.length_eq ▸ hi
  have h2 := List.Forall₂.get allRules_parts hi hi'
  rw [List.get_eq_getElem, List.get_eq_getElem] at h2
  have hz : i < (allRules.zip allParts).length := by rw [List.length_zip]; exact lt_min hi hi'
  have h3 := h _ (List.getElem_mem hz)
  rw [List.getElem_zip] at h3
  rw [check_of_read h2]
  exact h3

end Verif.Rules
