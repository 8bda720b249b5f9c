import Verif.Model.Table

/-!
# Dispatch of commands and processing of input
(src/client/commands/commands.c, cmd_load.c, cmd_help.c, src/util/console_util.c,
src/client/main.c)

Input is read with `getline` (the variant without readline).  Messages are not modelled.
-/

namespace Verif
variable {V ε ρ σ : Type}

/-- The commands, src/client/commands/commands.c:41-49 -/
inductive Command where
  | help
  | table
  | definition
  | clear
  | load
  | evaluation
deriving DecidableEq, Repr

/-- `cmd_help_check`, src/client/commands/cmd_help.c:120-126; the code is modelled in Model/Help.lean. -/
def helpCheck (input : Str) : Bool :=
  input == "help".toList || input == "help operators".toList || input == "license".toList

/-- `COMMAND`, src/client/commands/cmd_load.c:12 -/
def loadCommand : Str := "load ".toList

/-- `LOAD_SIMPLIFICATION`, cmd_load.c:13 -/
def loadSimpCommand : Str := "load simplification ".toList

/-- `cmd_load_check`, cmd_load.c:15-18 -/
def loadCheck (input : Str) : Bool := beginsWith loadCommand input

/-- The commands with their check functions, commands.c:41-49 -/
def commandTable : List (Command × (Str → Bool)) :=
  [(.help, helpCheck), (.table, tableCheck), (.definition, definitionCheck), (.clear, clearCheck),
    (.load, loadCheck), (.evaluation, fun _ => true)]

/-- The loop of `exec_command`, commands.c:121-132: the command to execute.  It is never
`none` (`C47_total`). -/
def firstCommand (input : Str) : List (Command × (Str → Bool)) → Option Command
  | [] => none
  | (c, check) :: cs => if check input then some c else firstCommand input cs

/-- How a function that executes commands ends: it returns whether the command succeeded, or
the program exits, successfully or not. -/
inductive Fate (σ : Type) where
  | returned (s : σ) (ok : Bool)
  | exited (ok : Bool)
deriving DecidableEq, Repr

/-- `ask_input_getline`, src/util/console_util.c:61-80: the last character of the line (not
always a newline) is overwritten with a NUL.  If the line starts with a NUL, the character before the
buffer is overwritten. -/
def inputOf (line : Str) : Res Str :=
  if (cstr line).length = 0 then .ub else .ok (cstr line).dropLast

/-- `QUIT_COMMAND`, commands.c:20 -/
def quitCommand : Str := "quit".toList

/-- The loop of `process_input`, commands.c:96-111; `exec` is `exec_command`. -/
def processLines (exec : σ → Str → Out (Fate σ)) : List Str → σ → Bool → Out (Fate σ)
  | [], s, res => .ok (.returned s res)
  | l :: ls, s, res => do
    let input ← Out.of (inputOf l)
    if input = quitCommand then pure (.exited res)
    else if input.isEmpty || input.head? == some '#' then processLines exec ls s res
    else do
      match ← exec s input with
      | .returned s' ok => processLines exec ls s' (res && ok)
      | .exited ok => pure (.exited ok)

/-- `process_input`, commands.c:92-115, on a file with the given contents. -/
def processInput (exec : σ → Str → Out (Fate σ)) (s : σ) (text : Str) : Out (Fate σ) :=
  processLines exec (getlines text) s true

/-- The result of `process_input` is ignored, cmd_load.c:55-58. -/
def loaded : Fate σ → Fate σ
  | .returned s _ => .returned s true
  | .exited ok => .exited ok

/-- `cmd_load_exec`, cmd_load.c:23-59 -/
def loadExec (K : Program V ε ρ) (exec : Session V ρ → Str → Out (Fate (Session V ρ))) (s : Session V ρ)
    (input : Str) : Out (Fate (Session V ρ)) :=
  if beginsWith loadSimpCommand input then do
    let (w, ok) ← K.initSimp s.world s.ctx (input.drop loadSimpCommand.length)
    pure (.returned { s with world := w } ok)
  else
    match K.files (input.drop loadCommand.length) with
    | none => .ok (.returned s false)
    | some text => do
      let r ← processInput exec s text
      pure (loaded r)

/-- The exec functions of the commands; `help` only prints (cmd_help.c:312-340; what it prints
is modelled in Model/Help.lean, with `C87_help` for its success). -/
def runCommand (K : Program V ε ρ) (exec : Session V ρ → Str → Out (Fate (Session V ρ))) (s : Session V ρ)
    (input : Str) : Command → Out (Fate (Session V ρ))
  | .help => .ok (.returned s true)
  | .table => do
    let (s', r) ← tableExec K s input
    pure (.returned s' r.isSome)
  | .definition => do
    let (s', ok) ← definitionExec K.toClient s input
    pure (.returned s' ok)
  | .clear => do
    let (s', ok) ← Out.of (clearExec s input)
    pure (.returned s' ok)
  | .load => loadExec K exec s input
  | .evaluation => do
    let (s', r) ← evaluationExec K.toClient s input
    pure (.returned s' r.isSome)

/-- `exec_command`, commands.c:121-132.  Files may load files; `depth` bounds the nesting
(a file that loads itself never ends). -/
def execCommand (K : Program V ε ρ) : (depth : Nat) → Session V ρ → Str → Out (Fate (Session V ρ))
  | 0, _, _ => .hang
  | depth + 1, s, input =>
    match firstCommand input commandTable with
    | some c => runCommand K (execCommand K depth) s input c
    | none => .ok (.returned s false)

/-- The commands given as arguments, src/client/main.c:112-120: the first failure ends the
program. -/
def commandArgs (exec : σ → Str → Out (Fate σ)) : List Str → σ → Out (Fate σ)
  | [], s => .ok (.returned s true)
  | a :: as, s => do
    match ← exec s a with
    | .returned s' true => commandArgs exec as s'
    | .returned _ false => pure (.exited false)
    | .exited ok => pure (.exited ok)

end Verif
