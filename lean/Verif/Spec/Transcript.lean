import Verif.Spec.Commands
import Verif.Spec.RuleText
import Verif.Model.Transcript

/-!
# Spec of what is written (C91, C92)
-/

namespace Verif.TranscriptSpec
open Verif
variable {V E ρ σ : Type}

/-- Executing the inputs one after the other leads from `s` to `t`; the commands succeeded as the list says, and wrote `said`. -/
inductive Talks (exec : σ → Str → Out (Fate σ × Said)) : σ → List Str → σ → List Bool → Said → Prop
  | nil (s) : Talks exec s [] s [] ⟨[], []⟩
  | cons {s i s' b is t bs x y} : exec s i = .ok (.returned s' b, x) → Talks exec s' is t bs y →
      Talks exec s (i :: is) t (b :: bs) ⟨x.out ++ y.out, x.err ++ y.err⟩

/-- Nothing, or complete lines. -/
def WholeLines (text : Str) : Prop := text = [] ∨ text.getLast? = some '\n'

/-- The answer to a command: the result of an evaluation, a table or the text of the help.  All other commands have none. -/
def answer (K : Program V (E × Nat) ρ) (T : Texts V E ρ) (H : HelpEval V) (inter : Bool) (s : Session V ρ) (input : Str) :
    Command → Str
  | .evaluation =>
    match evaluationText K.toClient inter T.general s input with
    | .ok (_, some text) => text
    | _ => []
  | .table =>
    match tableExecText K inter T.fixed T.general s input with
    | .ok (_, some text) => text
    | _ => []
  | .help =>
    match Help.check input with
    | some code =>
      match Help.exec H.arith T.general T.notice H.rnd H.fuel s code with
      | .ok text => text
      | _ => []
    | none => []
  | _ => []

/-- What a program that is not interactive writes to standard output: executing the inputs leads from `s` to `t`, and the text consists
of their answers.  A file that is loaded counts as its lines.  Loading rules, or a file that cannot be read, has no answer. -/
inductive Script (K : Program V (E × Nat) ρ) (T : Texts V E ρ) (H : HelpEval V) : Session V ρ → List Str → Session V ρ → Str → Prop
  | nil (s) : Script K T H s [] s []
  | command {d s i s' b c is t out} : execCommand K d s i = .ok (.returned s' b) → firstCommand i commandTable = some c → c ≠ .load →
      Script K T H s' is t out → Script K T H s (i :: is) t (answer K T H false s i c ++ out)
  | file {s p text lines s' o is t out} : K.files p = some text → TextOf lines text → "quit".toList ∉ lines →
      Script K T H s (lines.filter CommandSpec.counts) s' o → Script K T H s' is t out →
      Script K T H s (("load ".toList ++ p) :: is) t (o ++ out)
  | rules {s p w ok is t out} : K.initSimp s.world s.ctx p = .ok (w, ok) → Script K T H { s with world := w } is t out →
      Script K T H s (("load simplification ".toList ++ p) :: is) t out
  | missing {s p is t out} : K.files p = none → Script K T H s is t out → Script K T H s (("load ".toList ++ p) :: is) t out

/-- Inputs without NUL characters, definitions without brackets; functions are cleared all together only. -/
def Gentle (i : Str) : Prop :=
  nul ∉ i ∧ ('=' ∈ i → '[' ∉ i) ∧ ("clear".toList <+: i → '=' ∈ i ∨ i = "clear".toList)

end Verif.TranscriptSpec
