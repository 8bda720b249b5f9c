import Verif.Props.Commands
import Verif.Props.Table

/-!
# Concrete inputs: cases that meet the hypotheses, and counterexamples (C48, C67, C68)
-/

namespace Verif.CommandProps
open Verif CommandSpec TableProps

/-- The files "f", "g" and "h". -/
def someFiles : Str → Option Str := fun p =>
  if p = "f".toList then some "clear q\nf(x)=x+1\n".toList
  else if p = "g".toList then some "quit\n".toList
  else if p = "h".toList then some "# comment\n\ntable x;1;3;1 fold x+y;0\nload f\n2\n".toList
  else none

/-- `W` with some files. -/
def P : Program Dbl EvalErr Unit := { W with files := someFiles }

/-- How a text is processed in a new session: the history and the number of user functions, whether all
commands succeeded, or the exit status. -/
def outcome (text : String) : Out (Option (List Dbl × Nat) × Bool) := do
  let s ← Out.of (initSession ())
  match ← processInput (execCommand P 5) s text.toList with
  | .returned t ok => pure (some (t.hist, t.funs.length), ok)
  | .exited ok => pure (none, ok)

/-- Files that load files: as if the contents had been typed in. -/
example : outcome "load h\nf(2)\n" = .ok (some ([.fin 6, .fin 2], 1), true) := by decide +kernel

/-- **C67**: the status is not the same: a failure in a file is not reported. -/
theorem C67_status : outcome "load f\n" = .ok (some ([], 1), true) ∧
    outcome "clear q\nf(x)=x+1\n" = .ok (some ([], 1), false) := by decide +kernel

/-- **C48** fails: the program ends with success although a command failed. -/
theorem C48_forgotten : outcome "clear q\nload g\n1\n" = .ok (none, true) ∧
    outcome "clear q\nquit\n1\n" = .ok (none, false) := by decide +kernel

/-- A history with an evaluation, a definition, a table with and one without fold, and failing commands. -/
example : outcome "1\nf(x)=2\nx\ntable x;1;2;1\ntable x;1;3;1 fold x+y;0\ntable x;1;3;1 fold x+z;0\n3+\n" =
    .ok (some ([.fin 1, .fin 6], 1), false) := by decide +kernel

/-- Failures: no such file, a table and an evaluation without result. -/
example : outcome "load nofile\n" = .ok (some ([], 0), false) ∧ outcome "table x;1;2\n" = .ok (some ([], 0), false) ∧
    outcome "1+\n" = .ok (some ([], 0), false) ∧ outcome "load simplification f\n" = .ok (some ([], 0), true) := by
  refine ⟨?_, ?_, ?_, ?_⟩ <;> decide +kernel

end Verif.CommandProps
