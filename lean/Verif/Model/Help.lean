import Verif.Model.Session
import Verif.Model.Evaluation
import Verif.Model.Drawing

/-!
# The commands `help` and `license` (src/client/commands/cmd_help.c)

Text is printed to standard output; the model yields it.  Tables are built by the functions of
Model/TableLayout.  `fmt` renders a constant (`CONSTANT_TYPE_FMT`).
-/

namespace Verif.Help
open Layout Drawing
variable {V ρ : Type}

/-- What is asked for: `SHORT_HELP_CODE`, `OPS_HELP_CODE`, `LICENSE_CODE`, src/client/commands/cmd_help.c:17-19. -/
inductive Code where
  | short
  | operators
  | license
deriving DecidableEq, Repr

/-- `cmd_help_check`, cmd_help.c:120-126; `none` is 0. -/
def check (input : Str) : Option Code :=
  if input = "help".toList then some .short
  else if input = "help operators".toList then some .operators
  else if input = "license".toList then some .license
  else none

/-- The bytes of a literal in UTF-8.  The only character outside of ASCII in the texts of cmd_help.c is the degree sign
in line 109, `C2 B0`. -/
def lit (s : String) : Str := s.toList.flatMap fun c => if c.toNat < 128 then [c] else [Char.ofNat (192 + c.toNat / 64), Char.ofNat (128 + c.toNat % 64)]

/-- `LICENSE`, cmd_help.c:22-38; `COPYRIGHT_NOTICE` (src/client/version.h) is a parameter, as it depends on the
version. -/
def license (notice : Str) : Str := notice ++ lit
  ("Scientific calculator in which you can define new functions and constants\n" ++
   "https://github.com/PhilippHochmann/ccalc\n" ++
   "\n" ++
   "This program is free software: you can redistribute it and/or modify\n" ++
   "it under the terms of the GNU General Public License as published by\n" ++
   "the Free Software Foundation, either version 3 of the License, or\n" ++
   "(at your option) any later version.\n" ++
   "\n" ++
   "This program is distributed in the hope that it will be useful,\n" ++
   "but WITHOUT ANY WARRANTY; without even the implied warranty of\n" ++
   "MERCHANTABILITY or FITNESS FOR A PARTICULAR PURPOSE.  See the\n" ++
   "GNU General Public License for more details.\n" ++
   "\n" ++
   "You should have received a copy of the GNU General Public License\n" ++
   "along with this program.  If not, see <https://www.gnu.org/licenses/>.\n")

/-- `COMMAND_TABLE`, cmd_help.c:40-50.  The last two rows of the array are not initialised explicitly: NULL. -/
def commandTable : List (List (Option Str)) :=
  [ [some (lit "<func|const> = <after>"), some (lit "Adds function or constant")],
    [some (lit "table <expr> ; <from> ; <to> ; <step>  \n   [fold <expr> ; <init>]"), some (lit "Prints table of values")],
    [some (lit "load [simplification] <path>"), some (lit "Executes commands or loads simplification ruleset in file")],
    [some (lit "clear [<func>]"), some (lit "Clears all or one function or constant")],
    [some (lit "help [operators]"), some (lit "Shows this message or a verbose list of all operators")],
    [some (lit "license"), some (lit "Shows information about ccalc's license")],
    [some (lit "quit"), some (lit "Closes application")],
    [none, none],
    [none, none] ]

/-- `OP_DESCRIPTIONS`, cmd_help.c:52-111 -/
def descriptions : List Str :=
  [ " Identity to parse rest of expression as if put in parentheses ",
    " History operator ",
    " Derivative shorthand ",
    " Derivative of expression with respect to variable ",
    " Addition ",
    " Subtraction ",
    " Multiplication ",
    " Division ",
    " Exponentiation ",
    " Binomial coefficient ",
    " Modulo operator ",
    " Identity ",
    " Negation ",
    " Factorial ",
    " Division by 100 ",
    " Natural exponential function ",
    " nth root of x ",
    " Square root ",
    " Logarithm to base n ",
    " Natural logarithm ",
    " Binary logarithm ",
    " Logarithm to base 10 ",
    " Sine ",
    " Cosine ",
    " Tangent ",
    " Inverse sine ",
    " Inverse cosine ",
    " Inverse tangens ",
    " Hyperbolic sine ",
    " Hyperbolic cosine ",
    " Hyperbolic tangent ",
    " Inverse hyperbolic sine ",
    " Inverse hyperbolic cosine ",
    " Inverse hyperbolic tangent ",
    " Maximum ",
    " Minimum ",
    " Absolute value ",
    " Round up to nearest integer ",
    " Round down to nearest integer ",
    " Round to nearest integer ",
    " Round towards zero to nearest integer ",
    " Fractional part of x ",
    " Sign of x (-1, 0, 1) ",
    " Sum of all operands ",
    " Product of all operands ",
    " Arithmetic mean of all operands ",
    " Greatest common divisor ",
    " Least common multiple ",
    " Random integer between min and max (exclusive) ",
    " Fibonacci sequence ",
    " Gamma function ",
    " Variance of a population ",
    " Archimedes' constant ",
    " Euler's number ",
    " Golden ratio ",
    " Speed of light [m/s] ",
    " Speed of sound in air at 20 °C [m/s] ",
    " Last result " ].map lit

/-- The number `n` as `%zu` and `%d` print it. -/
def decimal (n : Nat) : Str := Nat.toDigits 10 n

/-- What `print_op` prints of an operator between the colours, cmd_help.c:133-173. -/
def usage (o : Op) : Str :=
  match o.placement with
  | .prefix => if o.arity ≠ .fixed 0 then o.name ++ "x".toList else o.name
  | .infix => if headIs isLetter o.name then "x ".toList ++ o.name ++ " y".toList else "x".toList ++ o.name ++ "y".toList
  | .postfix => "x".toList ++ o.name
  | .function =>
    match o.arity with
    | .fixed 0 => o.name
    | .dyn => o.name ++ "(*)".toList
    | .fixed n => o.name ++ "(".toList ++ decimal n ++ ")".toList

/-- `print_op`, cmd_help.c:129-176: the text and the result. -/
def printOp (o : Op) : Str × Int := (opColor ++ usage o ++ colReset ++ " ".toList, (usage o).length + 1)

/-- `TTY_WIDTH`, cmd_help.c:20 -/
def ttyWidth : Int := 80

/-- The loop of `print_ops_between`, cmd_help.c:182-193; `n` is `end - start`. -/
def opsLoop : List Op → (n : Nat) → (remaining : Int) → Str
  | [], _, _ => []
  | _ :: _, 0, _ => []
  | o :: os, n + 1, remaining =>
    let (text, k) := printOp o
    if remaining - k ≤ 0 then text ++ '\n' :: opsLoop os n ttyWidth else text ++ opsLoop os n (remaining - k)

/-- `print_ops_between`, cmd_help.c:178-194; an index outside of the list violates the assertion in
src/util/linked_list.c:62. -/
def printOpsBetween (ops : List Op) (first last : Nat) : Res Str :=
  if ops.length ≤ first then .ub else .ok (opsLoop (ops.drop first) (last - first) ttyWidth)

/-- The sections of `print_short_help`, cmd_help.c:280-290, with the indices in lines 113-118. -/
def sections (ops : List Op) : Res Str := do
  let a ← printOpsBetween ops 0 4
  let b ← printOpsBetween ops 4 22
  let c ← printOpsBetween ops 22 34
  let d ← printOpsBetween ops 34 52
  let e ← printOpsBetween ops 52 58
  pure (lit "\nPseudo operators:\n" ++ a ++ lit "\nBasic operators:\n" ++ b ++ lit "\nTrigonometric functions:\n" ++ c ++
    lit "\nMiscellaneous functions:\n" ++ d ++ lit "\nConstants:\n" ++ e ++ lit "\n")

/-- A table that is filled by some calls and printed. -/
def printed (cs : List Call) : Out Str := do
  let t ← Out.of (calls cs empty)
  let (ls, _) ← print t
  pure (output ls)

/-- `add_cells_from_array`, src/table/table.c:796-806 -/
def arrayCalls (rows : List (List (Option Str))) : List Call :=
  rows.flatMap fun r => r.map .add ++ [.nextRow]

/-- The loop over the functions, cmd_help.c:298-306. -/
def functionCalls (fmt : V → Str) : List (RewriteRule V) → Res (List Call)
  | [] => .ok []
  | r :: rs => do
    let left ← treeToStrColor fmt r.pattern.tree
    let right ← treeToStrColor fmt r.after
    let cs ← functionCalls fmt rs
    pure (.add (some left) :: .add (some (lit " = ")) :: .add (some right) :: .nextRow :: cs)

/-- The functions of the user, cmd_help.c:293-309. -/
def functionTable (fmt : V → Str) (funs : List (RewriteRule V)) : Out Str :=
  if funs.length > 0 then do
    let cs ← Out.of (functionCalls fmt funs)
    let t ← printed cs
    pure (lit "User-defined functions and constants:\n" ++ t)
  else pure []

/-- `print_short_help`, cmd_help.c:273-310 -/
def shortHelp (fmt : V → Str) (s : Session V ρ) : Out Str := do
  let t ← printed (arrayCalls commandTable)
  let o ← Out.of (sections (s.ctx.ops.map (·.2)))
  let f ← functionTable fmt s.funs
  pure (t ++ o ++ f)

/-! ## Tables of operators -/

/-- The cell with the value of a constant, cmd_help.c:248-260. -/
def valueCell (fmt : V → Str) : Except EvalErr V → Res (Option Str)
  | .ok v => .ok (some (lit " " ++ fmt v ++ lit " "))
  | .error (.code _) => .ok none
  | .error _ => .ub

/-- The arguments of `print_op_table`, cmd_help.c:196. -/
structure Columns where
  place : Placement
  assoc : Bool
  precedence : Bool
  arity : Bool
  value : Bool

/-- The heading, cmd_help.c:199-207. -/
def heading (c : Columns) : List Call :=
  [.setAligns [.left, .right] [], .overrideHRow .left, .add (some (lit " Name "))] ++
  (if c.precedence then [.add (some (lit " Precedence "))] else []) ++
  (if c.assoc then [.add (some (lit " Assoc. "))] else []) ++
  (if c.arity then [.add (some (lit " Arity "))] else []) ++
  (if c.value then [.add (some (lit " Value "))] else []) ++
  [.add (some (lit " Description ")), .nextRow]

/-- Whether an operator belongs to the table, cmd_help.c:215. -/
def listed (c : Columns) (o : Op) : Bool :=
  o.placement == c.place && (c.place != .function || c.value == decide (o.arity = .fixed 0))

/-- The row of an operator, cmd_help.c:217-263; `value` is the result of `arith_op_evaluate`. -/
def opRow (fmt : V → Str) (c : Columns) (o : Op) (description : Str) (value : Except EvalErr V) : Res (List Call) := do
  let v ← if c.value then do
      let x ← valueCell fmt value
      pure [.overrideH .right, .add x]
    else pure []
  pure ([.add (some (lit " " ++ o.name ++ lit " "))] ++
    (if c.precedence then [.add (some (lit " " ++ decimal o.prec ++ lit " "))] else []) ++
    (if c.assoc then [.add (some (if o.assoc = .left then lit " Left " else lit " Right "))] else []) ++
    (if c.arity then
      [.add (some (match o.arity with | .fixed n => lit " " ++ decimal n ++ lit " " | .dyn => lit " * "))] else []) ++
    v ++ [.add (some description), .nextRow])

/-- The loop of `print_op_table`, cmd_help.c:209-267, with the operators and the descriptions that are left (the
descriptions end at `LAST_IND`). -/
def opRows (fmt : V → Str) (eval : Op → Except EvalErr V) (c : Columns) : List Op → List Str → Res (List Call)
  | o :: os, d :: ds => do
    let r ← if listed c o then opRow fmt c o d (eval o) else pure []
    let rs ← opRows fmt eval c os ds
    pure (r ++ rs)
  | _, _ => .ok []

/-- `print_op_table`, cmd_help.c:196-271 -/
def opTable (fmt : V → Str) (eval : Op → Except EvalErr V) (ops : List Op) (c : Columns) : Out Str :=
  if ops.length ≤ 0 then .ub
  else do
    let rs ← Out.of (opRows fmt eval c ops descriptions)
    printed (heading c ++ rs)

/-- The five tables, cmd_help.c:327-336. -/
def tables : List (Str × Columns) :=
  [ (lit "Infix operators:\n", ⟨.infix, true, true, false, false⟩),
    (lit "\nPrefix operators:\n", ⟨.prefix, false, true, false, false⟩),
    (lit "\nPostfix operators:\n", ⟨.postfix, false, true, false, false⟩),
    (lit "\nFunctions:\n", ⟨.function, false, false, true, false⟩),
    (lit "\nConstants:\n", ⟨.function, false, false, false, true⟩) ]

/-- Several tables with their titles. -/
def opTables (fmt : V → Str) (eval : Op → Except EvalErr V) (ops : List Op) : List (Str × Columns) → Out Str
  | [] => pure []
  | (title, c) :: cs => do
    let t ← opTable fmt eval ops c
    let ts ← opTables fmt eval ops cs
    pure (title ++ t ++ ts)

/-- `cmd_help_exec`, cmd_help.c:312-340: what is printed.  The result is always true, and nothing is changed. -/
def exec (A : Arith V) (fmt : V → Str) (notice : Str) (rnd fuel : Nat) (s : Session V ρ) : Code → Out Str
  | .short => shortHelp fmt s
  | .license => pure (license notice)
  | .operators => opTables fmt (fun o => evalOp A s.hist rnd fuel o []) (s.ctx.ops.map (·.2)) tables

end Verif.Help
