import Verif.Model.Table
import Verif.Model.Drawing

/-!
# What the table and evaluation commands print (src/client/commands/cmd_table.c, cmd_evaluation.c)

`fixed` renders a number with `DOUBLE_FMT` (`%-.10f`, cmd_table.c:20), `general` with `CONSTANT_TYPE_FMT` (`%-.10g`,
src/engine/tree/tree_to_string.h:10).  The text goes to standard output, which the model yields.
-/

namespace Verif
open Layout Drawing
variable {V ε ρ : Type}

/-- The name of the expression in the table, src/client/commands/cmd_table.c:70-74. -/
def tableTitle (general : V → Str) (raw : Tree V) : Res Str := do
  let t ← treeToStrColor general raw
  pure (" ".toList ++ t ++ " ".toList)

/-- The header, cmd_table.c:150-165. -/
def headerCalls (interactive : Bool) (var : Option Str) (title : Str) : List Call :=
  if interactive then
    [.add none,
      match var with
      | some n => .add (some (varColor ++ " ".toList ++ n ++ " ".toList ++ colReset))
      | none => .add none,
      .add (some title), .nextRow]
  else []

/-- The cells of a row, cmd_table.c:177-204. -/
def rowCells (interactive : Bool) (fixed : V → Str) (i : Nat) (row : TableRow V) : List Call :=
  (if interactive then [.add (some (" ".toList ++ Nat.toDigits 10 i ++ " ".toList))] else []) ++
  [.add (some (" ".toList ++ fixed row.pos ++ " ".toList)),
    match row.value with
    | some v => .add (some (" ".toList ++ fixed v ++ " ".toList))
    | none => .add (some " Error ".toList),
    .nextRow]

/-- The cells of all rows, cmd_table.c:168-206, from number `i` on. -/
def allCells (interactive : Bool) (fixed : V → Str) : (i : Nat) → List (TableRow V) → List Call
  | _, [] => []
  | i, row :: rows => rowCells interactive fixed i row ++ allCells interactive fixed (i + 1) rows

/-- What is printed, cmd_table.c:148-216. -/
def tableText (interactive : Bool) (fixed general : V → Str) (title : Str) (var : Option Str) (out : TableOut V) : Out Str := do
  let t ← Out.of (calls (headerCalls interactive var title ++ allCells interactive fixed 1 out.rows ++
    [.setAligns [.right, .right, .right] []]) empty)
  let (ls, _) ← print t
  match out.fold with
  | none => pure (output ls)
  | some v => pure (output ls ++ "Fold result: ".toList ++ general v ++ "\n".toList)

/-- cmd_table.c:63-216, like `tableExpr`, with the text that is printed.  (Parsing without simplification does not change the
session, so it does not matter that the tree in line 72 is parsed anew here.) -/
def tablePrint (K : Program V ε ρ) (interactive : Bool) (fixed general : V → Str) (s : Session V ρ) :
    List Str → Out (Session V ρ × Option Str)
  | e :: a :: b :: c :: more => do
    match ← Out.of (parseEasy s.ctx K.strtod e) with
    | none => pure (s, none)
    | some raw => do
      let title ← Out.of (tableTitle general raw)
      match ← arithParse K.toClient s e with
      | (s1, none) => pure (s1, none)
      | (s1, some t) =>
        let r := listVariables 1 t
        if !r.sufficient then pure (s1, none)
        else do
          match ← tableBounds K s1 r.tree r.vars.head? [a, b, c] more with
          | (s2, none) => pure (s2, none)
          | (s2, some out) => do
            let text ← tableText interactive fixed general title r.vars.head? out
            pure (s2, some text)
  | _ => .ub

/-- `cmd_table_exec`, cmd_table.c:37-228, with the text that is printed; `none` if the command failed. -/
def tableExecText (K : Program V ε ρ) (interactive : Bool) (fixed general : V → Str) (s : Session V ρ) (input : Str) :
    Out (Session V ρ × Option Str) :=
  let r := strSplit (input ++ [nul]) tableCommand.length tableDelims
  if r.2.length ≠ 4 ∧ r.2.length ≠ 6 then .ok (s, none)
  else do
    let (m, os) ← Out.of (stripAll r.1 r.2)
    tablePrint K interactive fixed general s (os.map (cstrAt m))

/-- `cmd_evaluation_exec`, src/client/commands/cmd_evaluation.c:22-35, with the text that is printed; `whisper` prints in
interactive mode only (src/util/console_util.c). -/
def evaluationText (K : Client V ε ρ) (interactive : Bool) (general : V → Str) (s : Session V ρ) (input : Str) :
    Out (Session V ρ × Option Str) := do
  match ← evaluationExec K s input with
  | (s', none) => pure (s', none)
  | (s', some t) => do
    let text ← Out.of (treeToStr general t)
    pure (s', some ((if interactive then "= ".toList else []) ++ text ++ "\n".toList))

end Verif
