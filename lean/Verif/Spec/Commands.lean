import Verif.Model.Commands

/-!
# What commands are and what it means to execute some
-/

namespace Verif.CommandSpec
variable {σ : Type}

/-- The forms of commands in README.md ("Available commands"). -/
inductive Documented : Str → Command → Prop
  | help : Documented "help".toList .help
  | operators : Documented "help operators".toList .help
  | license : Documented "license".toList .help
  | table (r) : Documented ("table ".toList ++ r) .table
  | definition (l r) : Documented (l ++ '=' :: r) .definition
  | clear : Documented "clear".toList .clear
  | clearOne (f) : Documented ("clear ".toList ++ f) .clear
  | load (p) : Documented ("load ".toList ++ p) .load

/-- The input looks like the command. -/
def Looks (input : Str) : Command → Prop
  | .help => input ∈ ["help".toList, "help operators".toList, "license".toList]
  | .table => "table ".toList <+: input
  | .definition => '=' ∈ input
  | .clear => "clear".toList <+: input
  | .load => "load ".toList <+: input
  | .evaluation => True

/-- The commands that are tried before a command. -/
def before : Command → List Command
  | .help => []
  | .table => [.help]
  | .definition => [.help, .table]
  | .clear => [.help, .table, .definition]
  | .load => [.help, .table, .definition, .clear]
  | .evaluation => [.help, .table, .definition, .clear, .load]

/-- A line that is neither blank nor a comment. -/
def counts (line : Str) : Bool := !line.isEmpty && line.head? != some '#'

/-- Executing the inputs one after the other leads from `s` to `t`; the commands succeeded as the
list says. -/
inductive Runs (exec : σ → Str → Out (Fate σ)) : σ → List Str → σ → List Bool → Prop
  | nil (s) : Runs exec s [] s []
  | cons {s i s' b is t bs} : exec s i = .ok (.returned s' b) → Runs exec s' is t bs →
      Runs exec s (i :: is) t (b :: bs)

end Verif.CommandSpec
