import Verif.Model.Printf
import Verif.Lemmas.PrintfText
import Verif.Props.CommandRuns
import Verif.Props.TranscriptMain
import Verif.Props.TranscriptNotices

/-!
# Transcripts (C91, C92)

Runs of the calculator with binary64 numbers, `printf` and `strtod` as in `Model/Printf.lean`, and `simplify` as it is.
-/

-- One example after the other, to save memory.
set_option Elab.async false

namespace Verif.TranscriptProps
open Verif CommandSpec TranscriptSpec SimplifyProps TableProps

/-- The operations on doubles that the constraints need. -/
def dblD : Doubles Dbl := ⟨fun n => .fin n, Dbl.eq, Dbl.lt, Dbl.le, Dbl.abs⟩

theorem dblD_sane : dblD.Sane := by
  intro a b _ _
  simp [dblD, Dbl.eq, Bool.beq_eq_decide_eq]

/-- The files "good", "bad" and "both". -/
def runFiles : Str → Option Str := fun p =>
  if p = "good".toList then some "f(x)=x+1\nf(2)\n".toList
  else if p = "bad".toList then some "1/0\n7\n".toList
  else if p = "both".toList then some "load bad\nload good\n".toList
  else none

/-- How it parses and simplifies. -/
def ccalcClient : Client Dbl (SimpErr EvalErr × Nat) (World Unit) :=
  client Printf.strtod dblD (fun _ h => evalOp (Dbl.arith Dbl.round lib0) h 0 100) (.code .variableEncountered) id Dbl.round 1000

/-- The calculator; the rules are those shipped, or none. -/
def ccalc : Program Dbl (SimpErr EvalErr × Nat) (World Unit) where
  toClient := ccalcClient
  reduce w h t := .ok (w, match treeReduce (evalOp (Dbl.arith Dbl.round lib0) h 0 100) (.code .variableEncountered) t [] with
    | .ok v => .ok v
    | .error e => .error (.listener e.1, 0))
  zero := .fin 0
  lt := Dbl.lt
  le := Dbl.le
  add := Dbl.add Dbl.round
  neg := Dbl.neg
  rounds := 20
  files := runFiles
  initSimp w _ p := .ok (if p = "rules".toList then { w with loaded := true } else w, p ≠ "nowhere".toList)

/-- Its texts.  Any file of rules but "rules" has an error. -/
def ccalcTexts : Texts Dbl (SimpErr EvalErr) (World Unit) where
  fixed := Printf.fixed10
  general := Printf.general10
  message := simpMessage
  strerror _ := "No such file or directory".toList
  ruleReports _ _ p := if p = "rules".toList then [] else "Error\n".toList
  ruleCount _ _ p := if p = "rules".toList then 160 else -2
  notice := "ccalc\n".toList

def ccalcHelp : HelpEval Dbl := ⟨Dbl.arith Dbl.round lib0, 0, 100⟩

theorem ccalc_errors : ConsoleProps.ErrTok ccalcClient := ConsoleProps.client_errTok dblD_sane

theorem ccalc_keeps : SimpKeeps ccalcClient := C79_keeps dblD_sane

theorem ccalc_words : SimpWords ccalcClient := C88_words dblD_sane

/-- The assumptions of C91 are met. -/
theorem ccalc_decent : Decent ccalc ccalcTexts := by
  refine ⟨ccalc_errors, ccalc_keeps, ccalc_words, ?_, Printf.fixed10_plain, Printf.general10_plain⟩
  show 1000 < sizeMax
  decide

/-- What the program writes, started with the arguments `args` while `stdin` is typed in, and whether it succeeds. -/
def run (args : List String) (stdin : String) (tty : Bool) : Out (Said × Bool) :=
  mainSays ccalcTexts.notice (do let s ← Out.of (initSession ⟨false, ()⟩); pure (s, {})) (execSays ccalc ccalcTexts ccalcHelp 4) stdin.toList tty
    (args.map String.toList)

/-- It writes this to standard output and to standard error, and succeeds or not. -/
def Writes (args : List String) (stdin : String) (tty : Bool) (out err : String) (ok : Bool) : Prop :=
  run args stdin tty = .ok (⟨out.toList, err.toList⟩, ok)

instance (args : List String) (stdin : String) (tty : Bool) (out err : String) (ok : Bool) : Decidable (Writes args stdin tty out err ok) :=
  inferInstanceAs (Decidable (_ = _))

/-! ## Transcripts -/

/-- Standard input that is not a terminal: results only; comments and definitions have no answer (C91). -/
example : Writes [] "1+2\nf(x, y) = 2*x - y\n# comment\n\nf(4, 5)/2\nf(z, 1)\nans+1\n" false "3\n1.5\n2*z-1\n2.5\n" "" true := by decide +kernel

/-- Reports go to standard error, and the program fails in the end (C92). -/
example : Writes [] "2/0\nsin(1\n7\n" false "7\n" "Error: Division by zero\nError: Missing closing parenthesis\n" false := by decide +kernel

/-- Commands as arguments: the first one that fails ends the program (`C92_commands`). -/
example : Writes ["-q", "-c", "f(x)=2*x", "f(4)", "1/0", "7"] "3\n" false "8\n" "Error: Division by zero\nError occurred in command 3\n"
    false := by decide +kernel

example : Writes ["-i", "--commands", "1"] "3\n" false "1\n3\n" "" true := by decide +kernel

/-- The notices of the interactive mode; the file that is loaded has none (`C91_defined`, `C91_cleared`, `C91_load`). -/
example : Writes ["-q"] "k = 2\nk() = 2\nc() = 2\nf(x)=x\nk\nclear k\nclear f\nclear f\n" true
    ("Added constant.\nAdded constant. Note: constants don't require a parameter list.\nAdded function.\n= 2\nConstant removed\n" ++
      "Function removed\n\n")
    ("Error: Function or constant already defined. Use clear command before redefinition\n" ++
      "      ^ Error: Unknown function or constant\n") false := by decide +kernel

example : Writes ["-q"] "clear\nload simplification rules\nload good\nclear sin\nquit\n2\n" true
    "All functions and constants cleared\nSuccessfully loaded simplification (160 rules)\n3\n" "Built-in functions can not be removed\n"
    false := by decide +kernel

/-- What is wrong with a definition, in interactive mode and not. -/
example : Writes ["-q"] "k = z\nk = k\nsin=2\nf(x,x)=1\nf(2)=1\n1=2\n=3\n" true "\n"
    ("Error: Unbound variable\nError: Recursive definition\nError: Built-in functions can not be redefined\n" ++
      "^~~~~~ Error: Function arguments must be distinct variables\n^~~~ Error: Function arguments must be variables\n" ++
      "^ Error: Not a function or constant\n^ Error: Not a function or constant\n") false := by decide +kernel

example : Writes ["-q"] "f(xa,xb,xc,xd,xe,xf,xg,xh,xi,xj,xk)=1\nf(2)=1\n f(x+)=1\nf(x)=x+\n+x=1\n" false ""
    ("Too many function parameters. Maximum is 10.\nError: Function arguments must be variables\nError: Unexpected closing parenthesis\n" ++
      "Error: Unexpected end of expression\nError: Not a function or constant\n") false := by decide +kernel

/-- Tables that are not printed. -/
example : Writes ["-q"] "table x;1;2\ntable x;z;1;2\ntable x;1;2;0\n" true "\n"
    ("Error: Invalid syntax. Syntax is:\ntable <expr> ; <from> ; <to> ; <step> [fold <expr> ; <init>]\n        ^ Error: Not constant\n" ++
      "            ^ Error: 'step' must not be zero\n\n") false := by decide +kernel

example : Writes ["-q"] "table q(;1;2;1\ntable x*y;1;2;1\ntable x;1;2;1 fold z+y;0\n" true "\n"
    ("        ^ Error: Unexpected end of expression\n      ^~~ Error: More than one variable\n\n" ++
      "                   ^~~ Error: Fold expression must not contain any variables except 'x' and 'y'\n\n") false := by decide +kernel

/-- Switches. -/
example : Writes ["--frob", "-h"] "" false "" ("Unrecognized argument: --frob\n" ++
      "Usage: ccalc [--help] [--version] [--interactive] [--quiet] [--commands [<commands>]]\nEach switch can be abbreviated by -h, -v etc.\n")
    false := by decide +kernel

example : Writes ["-q", "-v", "-h"] "" false ("Usage: ccalc [--help] [--version] [--interactive] [--quiet] [--commands [<commands>]]\n" ++
    "Each switch can be abbreviated by -h, -v etc.\n") "" true ∧ Writes ["-v"] "1\n" true "ccalc\n" "" true := by decide +kernel

/-- The banner is for terminals. -/
example : Writes ["-q"] "" true "\n" "" true ∧ Writes [] "" false "" "" true ∧
    Writes [] "quit\n" true ("ccalc\nThis program comes with ABSOLUTELY NO WARRANTY; for details type 'license'.\n" ++
      "This is free software, and you are welcome to redistribute it under certain conditions.\n") "" true := by decide +kernel

/-- **C92** fails: `load` succeeds although a command in the file failed, and the program succeeds with a report on standard error.
The same happens if the rules are malformed: `init_simplification` returns -2, and only -1 counts as failure (cmd_load.c:31). -/
theorem C92_load : Writes ["-c", "load bad"] "" false "7\n" "Error: Division by zero\n" true ∧
    Writes [] "load both\n" false "7\n3\n" "Error: Division by zero\n" true ∧
    Writes ["-q"] "load simplification other\n" true "Successfully loaded simplification (-2 rules)\n\n" "Error\n" true := by decide +kernel

/-- Files that do not exist are reported. -/
example : Writes ["-c", "load x"] "" false "" "Error loading file: No such file or directory\nError occurred in command 1\n" false ∧
    Writes [] "load simplification nowhere\n" false "" "File not found or readable\n" false := by decide +kernel

/-! ## The hypotheses are met -/

/-- The files of `C91_total`. -/
theorem runFiles_gentle : ∀ p text, ccalc.files p = some text → ∃ lines, TextOf lines text ∧ ∀ l ∈ lines, Gentle l := by
  intro p text h
  simp only [ccalc, runFiles] at h
  split at h
  · cases h
    exact ⟨["f(x)=x+1".toList, "f(2)".toList], ⟨by decide, by decide⟩, by unfold Gentle; decide⟩
  · split at h
    · cases h
      exact ⟨["1/0".toList, "7".toList], ⟨by decide, by decide⟩, by unfold Gentle; decide⟩
    · split at h
      · cases h
        exact ⟨["load bad".toList, "load good".toList], ⟨by decide, by decide⟩, by unfold Gentle; decide⟩
      · cases h

/-- `C91_total` at the start of a session: loading the file "both" writes something. -/
example (s : Session Dbl (World Unit)) (hs : initSession ⟨false, ()⟩ = .ok s) (f : Fate (Session Dbl (World Unit)))
    (h : execCommand ccalc 5 s "load both".toList = .ok f) :
    ∃ said, execSays ccalc ccalcTexts ccalcHelp 5 true s "load both".toList = .ok (f, said) :=
  (C91_total ccalc ccalcTexts ccalc_decent ccalcHelp runFiles_gentle 5 true s _ f (.start hs) (by unfold Gentle; decide)).1 h

/-- What a command in a new session says. -/
def heard (inter : Bool) (input : String) : Out (Option Bool × Said) := do
  let s ← Out.of (initSession ⟨false, ()⟩)
  let (f, said) ← execSays ccalc ccalcTexts ccalcHelp 5 inter s input.toList
  pure (match f with | .returned _ ok => some ok | .exited _ => none, said)

/-- `C91_answers`, `C92_command_partial`. -/
example : heard false "1/4" = .ok (some true, ⟨"0.25\n".toList, []⟩) ∧ heard true "1/4" = .ok (some true, ⟨"= 0.25\n".toList, []⟩) ∧
    heard false "x=" = .ok (some false, ⟨[], "Error: Unexpected end of expression\n".toList⟩) ∧
    heard true "load both" = .ok (some true, ⟨"7\n3\n".toList, "Error: Division by zero\n".toList⟩) := by decide +kernel

end Verif.TranscriptProps
