import Verif.Model.Help
import Verif.Model.Commands

/-!
# When the help is shown (C87)
-/

namespace Verif.HelpProps
open Help

/-- **C87.** Which help is shown is decided by exactly the inputs that are taken for the command. -/
theorem C87_asked (input : Str) : ((check input).isSome = true ↔ helpCheck input = true) ∧
    (check input = some .short ↔ input = "help".toList) ∧ (check input = some .operators ↔ input = "help operators".toList) ∧
    (check input = some .license ↔ input = "license".toList) := by
  have h1 : "help operators".toList ≠ "help".toList := by decide +kernel
  have h2 : "license".toList ≠ "help".toList := by decide +kernel
  have h3 : "license".toList ≠ "help operators".toList := by decide +kernel
  unfold check helpCheck
  generalize "help".toList = x at *
  generalize "help operators".toList = y at *
  generalize "license".toList = z at *
  by_cases a : input = x
  · subst a; simp [h1.symm, h2.symm]
  by_cases b : input = y
  · subst b; simp [h1, h3.symm]
  by_cases c : input = z
  · subst c; simp [h2, h3]
  · simp [a, b, c]

example : check "help operators".toList = some .operators ∧ check "help ".toList = none := by decide +kernel

end Verif.HelpProps
