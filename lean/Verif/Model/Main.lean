import Verif.Model.Commands
import Verif.Model.Trie

/-!
# The command line (src/client/main.c)

`exec` is `exec_command`, `init` is `init_commands`, `stdin` is all that is read from there.  Of what is
printed only what `main` itself prints is modelled.  With readline, which edits lines, `stdin` are the lines it
returns.
-/

namespace Verif
variable {σ : Type}

/-- The `bool` variables of `main` a switch points to, src/client/main.c:52-56 -/
inductive Switch where
  | interactive | quiet | help | version | commands
deriving DecidableEq, Repr

/-- Their values. -/
structure Flags where
  interactive : Bool := false
  quiet : Bool := false
  help : Bool := false
  version : Bool := false
  commands : Bool := false
deriving DecidableEq, Repr

/-- `**sw = true`, main.c:37 -/
def Flags.set (f : Flags) : Switch → Flags
  | .interactive => { f with interactive := true }
  | .quiet => { f with quiet := true }
  | .help => { f with help := true }
  | .version => { f with version := true }
  | .commands => { f with commands := true }

/-- The calls of `add_switch`, main.c:58-67, in this order. -/
def switchTable : List (Str × Switch) :=
  [("--interactive".toList, .interactive), ("-i".toList, .interactive), ("--quiet".toList, .quiet), ("-q".toList, .quiet),
    ("--help".toList, .help), ("-h".toList, .help), ("--version".toList, .version), ("-v".toList, .version),
    ("--commands".toList, .commands), ("-c".toList, .commands)]

/-- `add_switch`, main.c:20-24, for each row. -/
def addSwitches (t : Trie Switch) : List (Str × Switch) → Res (Trie Switch)
  | [] => .ok t
  | (s, sw) :: rest => do
    let t' ← t.addElem s sw
    addSwitches t' rest

/-- `parse_arg`, main.c:32-44; reading a payload that was never written is `ub`. -/
def parseArg (t : Trie Switch) (arg : Str) (f : Flags) : Res (Flags × Option Switch) :=
  match t.contains arg with
  | (true, some sw) => .ok (f.set sw, some sw)
  | (true, none) => .ub
  | (false, _) => .ok (f, none)

/-- The loop of main.c:68-82: the flags and the arguments behind the switch for commands (`none` if there is no such
switch, `commands_index == -1`), or the argument that is not recognised. -/
def parseArgs (t : Trie Switch) : List Str → Flags → Res (Except Str (Flags × Option (List Str)))
  | [], f => .ok (.ok (f, none))
  | a :: as, f => do
    match ← parseArg t a f with
    | (f', some .commands) => pure (.ok (f', some as))
    | (_, none) => pure (.error a)
    | (f', some _) => parseArgs t as f'

/-- What `main` prints, main.c:78, 88, 94, 103-105 -/
inductive Shown where
  | unrecognized (arg : Str)
  | usage
  | version
  | banner
deriving DecidableEq, Repr

/-- main.c:112-121: the commands, if there are any. -/
def runArgs (exec : σ → Str → Out (Fate σ)) : Option (List Str) → σ → Out (Fate σ)
  | some cmds, s => commandArgs exec cmds s
  | none, s => .ok (.returned s true)

/-- main.c:122-130: how the program ends after the commands; `stop` tells that standard input is not read. -/
def finishMain (exec : σ → Str → Out (Fate σ)) (stdin : Str) (stop : Bool) : Fate σ → Out Bool
  | .exited ok => .ok ok
  | .returned s _ =>
    if stop then .ok true
    else do
      match ← processInput exec s stdin with
      | .returned _ ok => pure ok
      | .exited ok => pure ok

/-- main.c:98-107: the banner. -/
def banner (f : Flags) (cmds : Option (List Str)) (tty : Bool) : List Shown :=
  if f.interactive || cmds.isNone then (if !f.quiet && tty then [.banner] else []) else []

/-- `main`, main.c:46-133: what is printed and whether the exit status is `EXIT_SUCCESS`.  `tty` is
`isatty(STDIN_FILENO)`. -/
def mainProgram (init : Out σ) (exec : σ → Str → Out (Fate σ)) (stdin : Str) (tty : Bool) (args : List Str) :
    Out (List Shown × Bool) := do
  let t ← Out.of (addSwitches Trie.create switchTable)
  match ← Out.of (parseArgs t args {}) with
  | .error a => pure ([.unrecognized a], false)
  | .ok (f, cmds) =>
    if f.help then pure ([.usage], true)
    else if f.version then pure ([.version], true)
    else do
      let s ← init
      let r ← runArgs exec cmds s
      let ok ← finishMain exec stdin (cmds.isSome && !f.interactive) r
      pure (banner f cmds tty, ok)

end Verif
