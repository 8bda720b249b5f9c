import Verif.Model.Console
import Verif.Model.Help
import Verif.Model.Main
import Verif.Model.TableOutput

/-!
# Everything the program writes (src/client/commands/*.c, src/client/main.c, src/util/console_util.c)

The functions of Model/Session.lean, Model/Table.lean, Model/Commands.lean and Model/Main.lean once more, with what they write to
standard output and to standard error.  `interactive` is the variable of console_util.c:13.  What was written before the program
crashes or does not end is not modelled, nor is how the two streams interleave.
-/

namespace Verif
open Help (Code)
variable {V E ρ σ : Type}

/-- What was written to `stdout` and to `stderr`. -/
structure Said where
  out : Str := []
  err : Str := []
deriving DecidableEq, Repr

/-- One after the other. -/
def Said.then (a b : Said) : Said := ⟨a.out ++ b.out, a.err ++ b.err⟩

/-- `whisper`, src/util/console_util.c:50-59 -/
def whisper (interactive : Bool) (text : Str) : Str := if interactive then text else []

/-- Texts that come from elsewhere: `%-.10f` (`fixed`) and `%-.10g` (`general`) of `printf`, the message of an error of
`simplify`, `strerror(errno)` after `fopen` has failed, what `init_simplification` reports and returns, and the notice
`COPYRIGHT_NOTICE` with the version (src/client/version.h:9). -/
structure Texts (V E ρ : Type) where
  fixed : V → Str
  general : V → Str
  message : E → Str
  strerror : Str → Str
  ruleReports : ρ → Ctx → Str → Str
  ruleCount : ρ → Ctx → Str → Int
  notice : Str

/-- What `help operators` needs to evaluate the constants (src/client/commands/cmd_help.c:248). -/
structure HelpEval (V : Type) where
  arith : Arith V
  rnd : Nat
  fuel : Nat

/-! ## arith_context.c -/

/-- `arith_parse_raw`, src/client/core/arith_context.c:242-254: tokens and tree, or what is reported. -/
def parseRawSays (interactive : Bool) (c : Ctx) (strtod : Str → Option V) (inp : Str) (promptLen : Nat) :
    Res (Except Str (List Str × Tree V)) :=
  match parseInput c strtod inp with
  | (tokens, .err e k) => do
    let report ← showErrorAtToken interactive tokens k (perrToString e) promptLen
    pure (.error report)
  | (tokens, .ok t) => .ok (.ok (tokens, t))
  | (_, .okUninit) => .ub
  | (_, .ub) => .ub

/-- `arith_simplify`, arith_context.c:260-278: the tree, or what is reported. -/
def simplifySays (interactive : Bool) (K : Client V (E × Nat) ρ) (message : E → Str) (funs : List (RewriteRule V))
    (hist : List V) (w : ρ) (tokens : List Str) (t : Tree V) (promptLen : Nat) : Out (ρ × Except Str (Tree V)) := do
  let (t', _) ← Out.ofFuel (applyRuleset K.eqV (fun _ => true) funs sizeMax K.fuel t)
  let (w', r) ← K.simp w hist t'
  match r with
  | .error (e, i) => do
    let report ← Out.of (showErrorAtToken interactive tokens i (message e) promptLen)
    pure (w', .error report)
  | .ok u => pure (w', .ok u)

/-- `arith_parse`, arith_context.c:227-237: the tree, or what is reported. -/
def parseSays (interactive : Bool) (K : Client V (E × Nat) ρ) (message : E → Str) (s : Session V ρ) (inp : Str)
    (promptLen : Nat) : Out (Session V ρ × Except Str (Tree V)) := do
  match ← Out.of (parseRawSays interactive s.ctx K.strtod inp promptLen) with
  | .error report => pure (s, .error report)
  | .ok (tokens, t) => do
    let (w, r) ← simplifySays interactive K message s.funs s.hist s.world tokens t promptLen
    pure ({ s with world := w }, r)

/-! ## cmd_evaluation.c -/

/-- `cmd_evaluation_exec`, src/client/commands/cmd_evaluation.c:22-35 -/
def evaluationSays (interactive : Bool) (K : Client V (E × Nat) ρ) (T : Texts V E ρ) (s : Session V ρ) (input : Str) :
    Out (Session V ρ × Bool × Said) := do
  match ← parseSays interactive K T.message s input 0 with
  | (s', .error report) => pure (s', false, { err := report })
  | (s', .ok t) => do
    let text ← Out.of (treeToStr T.general t)
    let out := whisper interactive "= ".toList ++ text ++ "\n".toList
    match t with
    | .const v _ => pure ({ s' with hist := historyAdd s'.hist v }, true, { out := out })
    | _ => pure (s', true, { out := out })

/-! ## cmd_clear.c -/

/-- `cmd_clear_exec`, src/client/commands/cmd_clear.c:23-62, with the message of `remove_composite_function`
(src/client/core/arith_context.c:139). -/
def clearSays (interactive : Bool) (s : Session V ρ) (input : Str) : Res (Session V ρ × Bool × Said) :=
  if input = clearCommand then do
    let c ← clearFunctions s.ctx s.funs
    pure ({ s with ctx := c, funs := [] }, true, { out := whisper interactive "All functions and constants cleared\n".toList })
  else do
    let name := input.drop (clearCommand.length + 1)
    match ← s.ctx.lookup name .function with
    | none =>
      let report := reportErrorAt interactive (clearCommand.length + 1) name.length "Error: Unknown function or constant".toList
      pure (s, false, { err := report })
    | some (_, o) =>
      match takeRule o s.funs with
      | none => pure (s, false, { err := "Built-in functions can not be removed\n".toList })
      | some (r, rest) => do
        let c ← removeNodeOp s.ctx r
        let msg := if o.arity = .fixed 0 then "Constant removed\n".toList else "Function removed\n".toList
        pure ({ s with ctx := c, funs := rest }, true, { out := whisper interactive msg })

/-! ## cmd_definition.c -/

/-- `ERR_NOT_A_FUNC`, src/client/commands/cmd_definition.c:17 -/
def errNotAFunc : Str := "Error: Not a function or constant".toList

/-- `do_left_checks`, cmd_definition.c:30-67: the numbered tree, or the message.  (In line 56 `%zu` is given an `int`; we assume
that its value is printed.) -/
def leftSays : Tree V → Except Str (Tree V)
  | .op o cs i =>
    if o.placement ≠ .function then .error errNotAFunc
    else if cs.isEmpty then .ok (.op o cs i)
    else if cs.all Tree.isVariable then
      let r := listVariables maxMappedVars (.op o cs i)
      if !r.sufficient then .error ("Too many function parameters. Maximum is ".toList ++ Nat.toDigits 10 maxMappedVars ++ ".".toList)
      else if r.count ≠ cs.length then .error "Error: Function arguments must be distinct variables".toList
      else .ok r.tree
    else .error "Error: Function arguments must be variables".toList
  | _ => .error errNotAFunc

/-- The label `error` of `add_function`, cmd_definition.c:183-188, after something was reported. -/
def failSays (s : Session V ρ) (c : Ctx) (w : ρ) (name report : Str) : Out (Session V ρ × Bool × Said) := do
  let (s', ok) ← definitionFail s c w name
  pure (s', ok, { err := report })

/-- `add_function` from the parsing of the right side on, cmd_definition.c:132-181; `offset` is `right - left`. -/
def rightSays (interactive : Bool) (K : Client V (E × Nat) ρ) (message : E → Str) (s : Session V ρ) (c : Ctx) (name right : Str)
    (offset : Nat) (left : Tree V) (newOp : Op) (isConstant : Bool) : Out (Session V ρ × Bool × Said) := do
  match ← Out.of (parseRawSays interactive c K.strtod right offset) with
  | .error report => failSays s c s.world name report
  | .ok (tokens, rt) =>
    if (findOpNode newOp.id rt []).isSome then failSays s c s.world name "Error: Recursive definition\n".toList
    else do
      let (w, r) ← simplifySays interactive K message s.funs s.hist s.world tokens rt offset
      match r with
      | .error _ => .ub
      | .ok body =>
        match getPattern left [] with
        | .error _ => .ub
        | .ok pattern =>
          match getRule pattern body with
          | none => failSays s c w name "Error: Unbound variable\n".toList
          | some rule =>
            let msg :=
              if left.rootOp.map (·.arity) = some (.fixed 0) then
                if !isConstant then "Added constant. Note: constants don't require a parameter list.\n".toList
                else "Added constant.\n".toList
              else "Added function.\n".toList
            pure ({ s with ctx := c, funs := s.funs ++ [rule], world := w }, true, { out := whisper interactive msg })

/-- `add_function`, cmd_definition.c:69-189. -/
def addSays (interactive : Bool) (K : Client V (E × Nat) ρ) (message : E → Str) (s : Session V ρ) (name left right : Str)
    (isConstant : Bool) : Out (Session V ρ × Bool × Said) := do
  match ← Out.of (s.ctx.lookup name .function) with
  | some (_, o) => pure (s, false, { err :=
      if o.id < numArithOps then "Error: Built-in functions can not be redefined\n".toList
      else "Error: Function or constant already defined. Use clear command before redefinition\n".toList })
  | none => do
    let (c1, a1) ← Out.of (s.ctx.addOp
      (if isConstant then Op.getConstant name else Op.getFunction name .dyn))
    match ← Out.of (parseRawSays interactive c1 K.strtod left 0) with
    | .error report => failSays s c1 s.world name report
    | .ok (_, lt) =>
      match leftSays lt with
      | .error msg => failSays s c1 s.world name (reportErrorAt interactive 0 left.length msg)
      | .ok lt =>
        if isConstant then
          match a1 with
          | none => .ub
          | some a => do
            let newOp ← Out.of (c1.deref a)
            rightSays interactive K message s c1 name right (left.length + 1) lt newOp isConstant
        else do
          let (c2, _) ← Out.of (c1.deleteOp name .function)
          let (c3, a3) ← Out.of (c2.addOp (Op.getFunction name (.fixed lt.numChildren)))
          match a3 with
          | none => .ub
          | some a => do
            let newOp ← Out.of (c3.deref a)
            rightSays interactive K message s c3 name right (left.length + 1) (lt.setRootOp newOp) newOp isConstant

/-- `cmd_definition_exec`, cmd_definition.c:194-248 -/
def definitionSays (interactive : Bool) (K : Client V (E × Nat) ρ) (message : E → Str) (s : Session V ρ) (input : Str) :
    Out (Session V ρ × Bool × Said) :=
  match strstr input "=".toList with
  | none => .ub
  | some k =>
    let left := input.take k
    let right := input.drop (k + 1)
    let tokens := (tokenize s.ctx.keywords left).filter fun t => !headIs isSpace t
    match tokens with
    | [] => pure (s, false, { err := reportErrorAt interactive 0 left.length errNotAFunc })
    | name :: more =>
      if !headIs isLetter name then pure (s, false, { err := reportErrorAt interactive 0 left.length errNotAFunc })
      else addSays interactive K message s name left right more.isEmpty

/-! ## cmd_table.c -/

/-- A piece of the command: where it begins in the input, and its text (`args[i] - input` and `args[i]`). -/
abbrev TableArg := Nat × Str

/-- `arith_parse` of several pieces up to the first failure, src/client/commands/cmd_table.c:91-96, 120-124. -/
def parseAllSays (interactive : Bool) (K : Client V (E × Nat) ρ) (message : E → Str) (s : Session V ρ) :
    List TableArg → Out (Session V ρ × Except Str (List (Tree V)))
  | [] => .ok (s, .ok [])
  | (o, t) :: ts => do
    match ← parseSays interactive K message s t o with
    | (s1, .error report) => pure (s1, .error report)
    | (s1, .ok u) => do
      match ← parseAllSays interactive K message s1 ts with
      | (s2, .error report) => pure (s2, .error report)
      | (s2, .ok us) => pure (s2, .ok (u :: us))

/-- `check_if_constant`, cmd_table.c:27-35: what is reported, if anything. -/
def notConstant (interactive : Bool) (p : TableArg) (t : Tree V) : Option Str :=
  if countVars t ≠ 0 then some (reportErrorAt interactive p.1 p.2.length "Error: Not constant".toList) else none

/-- `tableShow` succeeds. -/
def tableDone (x : Session V ρ × Option (TableOut V)) : Session V ρ × Except Str (TableOut V) :=
  (x.1, match x.2 with | some out => .ok out | none => .error [])

/-- cmd_table.c:115-138 and what follows: the fold part. -/
def foldSays (interactive : Bool) (K : Program V (E × Nat) ρ) (message : E → Str) (s : Session V ρ) (expr : Tree V)
    (var : Option Str) (start stop step : V) : List TableArg → Out (Session V ρ × Except Str (TableOut V))
  | [] => do
    let x ← tableShow K s expr var start stop step none
    pure (tableDone x)
  | more => do
    match ← parseAllSays interactive K.toClient message s more, more with
    | (s1, .error report), _ => pure (s1, .error report)
    | (s1, .ok [f, i]), [pf, pi] =>
      if !foldVarsOk f then
        pure (s1, .error (reportErrorAt interactive pf.1 pf.2.length
          "Error: Fold expression must not contain any variables except 'x' and 'y'\n".toList))
      else
        match notConstant interactive pi i with
        | some report => pure (s1, .error report)
        | none => do
          let (w, a) ← arithEvaluate K s1.world s1.hist i
          let x ← tableShow K { s1 with world := w } expr var start stop step (some (f, a))
          pure (tableDone x)
    | (_, .ok _), _ => .ub

/-- cmd_table.c:91-113: the bounds. -/
def boundsSays (interactive : Bool) (K : Program V (E × Nat) ρ) (message : E → Str) (s : Session V ρ) (expr : Tree V)
    (var : Option Str) (pa pb pc : TableArg) (more : List TableArg) : Out (Session V ρ × Except Str (TableOut V)) := do
  match ← parseAllSays interactive K.toClient message s [pa, pb, pc] with
  | (s1, .error report) => pure (s1, .error report)
  | (s1, .ok [a, b, c]) =>
    match notConstant interactive pa a, notConstant interactive pb b, notConstant interactive pc c with
    | some report, _, _ => pure (s1, .error report)
    | none, some report, _ => pure (s1, .error report)
    | none, none, some report => pure (s1, .error report)
    | none, none, none => do
      let (w1, start) ← arithEvaluate K s1.world s1.hist a
      let (w2, stop) ← arithEvaluate K w1 s1.hist b
      let (w3, step) ← arithEvaluate K w2 s1.hist c
      if K.eqV step K.zero then
        pure ({ s1 with world := w3 }, .error (reportErrorAt interactive pc.1 pc.2.length "Error: 'step' must not be zero\n".toList))
      else foldSays interactive K message { s1 with world := w3 } expr var start stop step more
  | (_, .ok _) => .ub

/-- cmd_table.c:63-228 -/
def exprSays (interactive : Bool) (K : Program V (E × Nat) ρ) (T : Texts V E ρ) (s : Session V ρ) :
    List TableArg → Out (Session V ρ × Bool × Said)
  | e :: a :: b :: c :: more => do
    match ← Out.of (parseRawSays interactive s.ctx K.strtod e.2 e.1) with
    | .error report => pure (s, false, { err := report })
    | .ok (tokens, raw) => do
      let title ← Out.of (tableTitle T.general raw)
      let (w, r) ← simplifySays interactive K.toClient T.message s.funs s.hist s.world tokens raw e.1
      let s1 := { s with world := w }
      match r with
      | .error report => pure (s1, false, { err := report })
      | .ok t =>
        let r := listVariables 1 t
        if !r.sufficient then
          pure (s1, false, { err := reportErrorAt interactive e.1 e.2.length "Error: More than one variable\n".toList })
        else do
          match ← boundsSays interactive K T.message s1 r.tree r.vars.head? a b c more with
          | (s2, .error report) => pure (s2, false, { err := report })
          | (s2, .ok out) => do
            let text ← tableText interactive T.fixed T.general title r.vars.head? out
            pure (s2, true, { out := text })
  | _ => .ub

/-- `cmd_table_exec`, cmd_table.c:37-228 -/
def tableSays (interactive : Bool) (K : Program V (E × Nat) ρ) (T : Texts V E ρ) (s : Session V ρ) (input : Str) :
    Out (Session V ρ × Bool × Said) :=
  let r := strSplit (input ++ [nul]) tableCommand.length tableDelims
  if r.2.length ≠ 4 ∧ r.2.length ≠ 6 then
    .ok (s, false, { err := ("Error: Invalid syntax. Syntax is:\n" ++
      "table <expr> ; <from> ; <to> ; <step> [fold <expr> ; <init>]\n").toList })
  else do
    let (m, os) ← Out.of (stripAll r.1 r.2)
    exprSays interactive K T s (os.map fun o => (o, cstrAt m o))

/-! ## commands.c and cmd_load.c -/

/-- The loop of `process_input`, src/client/commands/commands.c:96-111; `said` is what was written before. -/
def linesSay (interactive : Bool) (exec : σ → Str → Out (Fate σ × Said)) : List Str → σ → Bool → Said → Out (Fate σ × Said)
  | [], s, res, said => .ok (.returned s res, said.then { out := whisper interactive "\n".toList })
  | l :: ls, s, res, said => do
    let input ← Out.of (inputOf l)
    if input = quitCommand then pure (.exited res, said)
    else if input.isEmpty || input.head? == some '#' then linesSay interactive exec ls s res said
    else do
      match ← exec s input with
      | (.returned s' ok, more) => linesSay interactive exec ls s' (res && ok) (said.then more)
      | (.exited ok, more) => pure (.exited ok, said.then more)

/-- `process_input`, commands.c:92-115. -/
def inputSays (interactive : Bool) (exec : σ → Str → Out (Fate σ × Said)) (s : σ) (text : Str) : Out (Fate σ × Said) :=
  linesSay interactive exec (getlines text) s true {}

/-- `cmd_load_exec`, src/client/commands/cmd_load.c:23-59; `exec` is `exec_command` while `interactive` is false. -/
def loadSays (interactive : Bool) (K : Program V (E × Nat) ρ) (T : Texts V E ρ)
    (exec : Session V ρ → Str → Out (Fate (Session V ρ) × Said)) (s : Session V ρ) (input : Str) :
    Out (Fate (Session V ρ) × Said) :=
  if beginsWith loadSimpCommand input then do
    let path := input.drop loadSimpCommand.length
    let (w, ok) ← K.initSimp s.world s.ctx path
    let said : Said := if ok then
        { out := whisper interactive ("Successfully loaded simplification (".toList ++
            (toString (T.ruleCount s.world s.ctx path)).toList ++ " rules)\n".toList),
          err := T.ruleReports s.world s.ctx path }
      else { err := "File not found or readable\n".toList }
    pure (.returned { s with world := w } ok, said)
  else
    let path := input.drop loadCommand.length
    match K.files path with
    | none => .ok (.returned s false, { err := "Error loading file: ".toList ++ T.strerror path ++ "\n".toList })
    | some text => do
      let (f, said) ← inputSays false exec s text
      pure (loaded f, said)

/-- The state and the status of a command that returns. -/
def saysReturned (x : Session V ρ × Bool × Said) : Fate (Session V ρ) × Said := (.returned x.1 x.2.1, x.2.2)

/-- The exec functions of the commands. -/
def runSays (interactive : Bool) (K : Program V (E × Nat) ρ) (T : Texts V E ρ) (H : HelpEval V)
    (exec : Session V ρ → Str → Out (Fate (Session V ρ) × Said)) (s : Session V ρ) (input : Str) :
    Command → Out (Fate (Session V ρ) × Said)
  | .help =>
    match Help.check input with
    | none => .ub
    | some code => do
      let text ← Help.exec H.arith T.general T.notice H.rnd H.fuel s code
      pure (.returned s true, { out := text })
  | .table => do
    let x ← tableSays interactive K T s input
    pure (saysReturned x)
  | .definition => do
    let x ← definitionSays interactive K.toClient T.message s input
    pure (saysReturned x)
  | .clear => do
    let x ← Out.of (clearSays interactive s input)
    pure (saysReturned x)
  | .load => loadSays interactive K T exec s input
  | .evaluation => do
    let x ← evaluationSays interactive K.toClient T s input
    pure (saysReturned x)

/-- `exec_command`, commands.c:121-132.  Files are processed with `interactive` false (cmd_load.c:54). -/
def execSays (K : Program V (E × Nat) ρ) (T : Texts V E ρ) (H : HelpEval V) : (depth : Nat) → (interactive : Bool) →
    Session V ρ → Str → Out (Fate (Session V ρ) × Said)
  | 0, _, _, _ => .hang
  | depth + 1, interactive, s, input =>
    match firstCommand input commandTable with
    | some c => runSays interactive K T H (execSays K T H depth false) s input c
    | none => .ok (.returned s false, {})

/-! ## main.c -/

/-- `HELP_MESSAGE`, src/client/main.c:12-13 -/
def helpMessage : Str := ("Usage: ccalc [--help] [--version] [--interactive] [--quiet] [--commands [<commands>]]\n" ++
  "Each switch can be abbreviated by -h, -v etc.\n").toList

/-- main.c:112-120: the commands given as arguments, the next being number `i`. -/
def argsSay (exec : σ → Str → Out (Fate σ × Said)) : List Str → (i : Nat) → σ → Said → Out (Fate σ × Said)
  | [], _, s, said => .ok (.returned s true, said)
  | a :: as, i, s, said => do
    match ← exec s a with
    | (.returned s' true, more) => argsSay exec as (i + 1) s' (said.then more)
    | (.returned _ false, more) => pure (.exited false, (said.then more).then
        { err := "Error occurred in command ".toList ++ Nat.toDigits 10 i ++ "\n".toList })
    | (.exited ok, more) => pure (.exited ok, said.then more)

/-- What is printed at the start, main.c:103-105. -/
def bannerText (notice : Str) : Str :=
  notice ++ ("This program comes with ABSOLUTELY NO WARRANTY; for details type 'license'.\n" ++
    "This is free software, and you are welcome to redistribute it under certain conditions.\n").toList

/-- main.c:98-107 -/
def helloSays (notice : Str) (f : Flags) (cmds : Option (List Str)) (tty : Bool) : Said :=
  { out := if f.interactive || cmds.isNone then (if !f.quiet && tty then bannerText notice else []) else [] }

/-- main.c:112-121: the commands, if there are any. -/
def runArgsSay (exec : σ → Str → Out (Fate σ × Said)) : Option (List Str) → σ → Said → Out (Fate σ × Said)
  | some cmds, s, said => argsSay exec cmds 1 s said
  | none, s, said => .ok (.returned s true, said)

/-- main.c:122-130: how the program ends after the commands; `stop` tells that standard input is not read. -/
def finishSays (interactive : Bool) (exec : σ → Str → Out (Fate σ × Said)) (stdin : Str) (stop : Bool) :
    Fate σ × Said → Out (Said × Bool)
  | (.exited ok, said) => .ok (said, ok)
  | (.returned s _, said) =>
    if stop then .ok (said, true)
    else do
      match ← inputSays interactive exec s stdin with
      | (.returned _ ok, more) => pure (said.then more, ok)
      | (.exited ok, more) => pure (said.then more, ok)

/-- `main`, main.c:46-133: what is written and whether the exit status is `EXIT_SUCCESS`.  `init` is `init_commands`, `exec` is
`exec_command` in the given mode. -/
def mainSays (notice : Str) (init : Out (σ × Said)) (exec : Bool → σ → Str → Out (Fate σ × Said)) (stdin : Str) (tty : Bool)
    (args : List Str) : Out (Said × Bool) := do
  let t ← Out.of (addSwitches Trie.create switchTable)
  match ← Out.of (parseArgs t args {}) with
  | .error a => pure ({ err := "Unrecognized argument: ".toList ++ a ++ "\n".toList ++ helpMessage }, false)
  | .ok (f, cmds) =>
    if f.help then pure ({ out := helpMessage }, true)
    else if f.version then pure ({ out := notice }, true)
    else do
      let (s, more) ← init
      let r ← runArgsSay (exec false) cmds s ((helloSays notice f cmds tty).then more)
      finishSays tty (exec tty) stdin (cmds.isSome && !f.interactive) r

end Verif
