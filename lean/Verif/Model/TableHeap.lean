import Verif.Model.RuleHeap
import Verif.Model.Table

/-!
# The table command in memory

`cmd_table_exec` (src/client/commands/cmd_table.c) on nodes in memory.

The variables `expr`, `start`, `end`, `step`, `fold_expr` and `fold_init` are values: their addresses are passed on
only to be assigned once or to be read.  `current_expr` and `current_fold`, whose addresses are passed to
`replace_variable_nodes`, have the numbers 4 and 5; 1 and 3 are as in Model/DefinitionHeap.  What is printed is
the subject of Model/TableOutput; the memory of the table that is printed and of texts is left out.  The arithmetic is
the same throughout one command, that is, random numbers do not change from row to row.
-/

namespace Verif
variable {V ε : Type}

/-- What the loop of the table command needs besides `Machine`: addition, the change of sign, and a bound for
the number of rows (`hang` if it is exceeded). -/
structure Stepping (V : Type) where
  add : V → V → V
  neg : V → V
  rounds : Nat

namespace Machine
variable (K : Machine V ε) (M : Malloc V) (F : Finder V) (deep : Nat) (strtod : Str → Option V)

/-- `arith_parse`, src/client/core/arith_context.c:227-237; `none` if it returns false. -/
def arithParseAt (funs : List MemFun) (ms : MemSimp V) (c : Ctx) (input : Str) (m : Mem V) :
    Out (Option Nat × Mem V) := do
  match ← parseHeap M true c.env strtod (tokenize c.keywords input) m with
  | (.err _ _, m1) => pure (none, m1)
  | (.okUninit, _) => .ub
  | (.ok p, m1) => do
    let m2 := m1.setVar 1 p
    let rules ← rulesAt deep m2 funs
    match ← K.arithSimplifyAt M F deep 3 rules ms m2 1 with
    | (some _, m3) => pure (none, m3)
    | (none, m3) => pure (m3.vars 1, m3)

/-- Several calls of `arith_parse` up to the first that fails, cmd_table.c:91-93, 120-121: whether none has failed
and the trees. -/
def parseAllAt (funs : List MemFun) (ms : MemSimp V) (c : Ctx) : List Str → Mem V → Out (Bool × List Nat × Mem V)
  | [], m => .ok (true, [], m)
  | t :: ts, m => do
    match ← K.arithParseAt M F deep strtod funs ms c t m with
    | (none, m1) => pure (false, [], m1)
    | (some p, m1) => do
      let r ← parseAllAt funs ms c ts m1
      pure (r.1, p :: r.2.1, r.2.2)

/-- `arith_evaluate`, src/client/core/arith_evaluation.c:381-386: errors give 0. -/
def evaluateAt (m : Mem V) (p : Option Nat) : Out V := do
  match ← reduceTree K.arith K.varErr deep m p with
  | .ok v => pure v
  | .error _ => pure (K.dbl.ofNat 0)

/-- cmd_table.c:184-195; `none` if there is no fold expression. -/
def foldAt (fold : Option Nat) (m : Mem V) (acc v : V) : Out (V × Mem V) :=
  match fold with
  | none => .ok (acc, m)
  | some f => do
    let a ← copyTree M deep m (some f)
    let x := a.2.alloc M (.const acc 0)
    let y := x.2.alloc M (.const v 0)
    let m1 ← replaceVariable M (some x.1) "x".toList deep (y.2.setVar 5 a.1) (.var 5)
    let m2 ← replaceVariable M (some y.1) "y".toList deep m1.2 (.var 5)
    let r ← K.evaluateAt deep m2.2 (m2.2.vars 5)
    let m3 ← freeTree deep m2.2 (m2.2.vars 5)
    let m4 ← freeTree deep m3 (some x.1)
    let m5 ← freeTree deep m4 (some y.1)
    pure (r, m5)

/-- cmd_table.c:172.  Without a variable `var` is uninitialised, but then it is not looked at. -/
def putValueAt (var : Option Str) (val : Nat) (m : Mem V) : Out (Mem V) :=
  match var with
  | none => .ok m
  | some n => do
    let r ← replaceVariable M (some val) n deep m (.var 4)
    pure r.2

/-- cmd_table.c:180-200, after the result of `tree_reduce`. -/
def resultAt (fold : Option Nat) (m : Mem V) (acc : V) : Except ε V → Out (Option V × V × Mem V)
  | .ok v => do
    let f ← K.foldAt M deep fold m acc v
    pure (some v, f.1, f.2)
  | .error _ => pure (none, acc, m)

/-- The body of the loop, cmd_table.c:170-203. -/
def rowAt (expr : Nat) (var : Option Str) (fold : Option Nat) (m : Mem V) (x acc : V) :
    Out (Option V × V × Mem V) := do
  let a ← copyTree M deep m (some expr)
  let c := a.2.alloc M (.const x 0)
  let m1 ← putValueAt M deep var c.1 (c.2.setVar 4 a.1)
  let r ← reduceTree K.arith K.varErr deep m1 (m1.vars 4)
  let f ← K.resultAt M deep fold m1 acc r
  let m2 ← freeTree deep f.2.2 (m1.vars 4)
  let m3 ← freeTree deep m2 (some c.1)
  pure (f.1, f.2.1, m3)

/-- The condition of the loop, cmd_table.c:168. -/
def within (stop step x : V) : Bool :=
  if K.dbl.lt (K.dbl.ofNat 0) step then K.dbl.le x stop else K.dbl.le stop x

/-- The loop, cmd_table.c:168-206. -/
def rowsAt (A : Stepping V) (expr : Nat) (var : Option Str) (fold : Option Nat) (stop step : V) :
    (rounds : Nat) → Mem V → (x acc : V) → Out (List (TableRow V) × V × Mem V)
  | 0, _, _, _ => .hang
  | k + 1, m, x, acc =>
    if K.within stop step x then do
      let r ← K.rowAt M deep expr var fold m x acc
      let q ← rowsAt A expr var fold stop step k r.2.2 (A.add x step) r.2.1
      pure (⟨x, r.1⟩ :: q.1, q.2)
    else .ok ([], acc, m)

/-- The direction of the steps, cmd_table.c:141-146. -/
def directed (A : Stepping V) (start stop step : V) : V :=
  if (K.dbl.lt start stop && K.dbl.lt step (K.dbl.ofNat 0)) || (K.dbl.lt stop start && K.dbl.lt (K.dbl.ofNat 0) step)
  then A.neg step else step

/-- The label `exit`, cmd_table.c:219-227, after a failure; `ps` are the variables that have been assigned,
in their order.  The others are NULL, and `free_tree(NULL)` does nothing. -/
def abandonAt (hist : List V) (ps : List Nat) (m : Mem V) : Out (Option (TableOut V) × List V × Mem V) := do
  let m' ← freeTrees deep ps m
  pure (none, hist, m')

/-- cmd_table.c:141-227: the loop, the history, and the label `exit`. -/
def showAt (A : Stepping V) (hist : List V) (ps : List Nat) (expr : Nat) (var : Option Str) (start stop step : V)
    (fold : Option (Nat × V)) (m : Mem V) : Out (Option (TableOut V) × List V × Mem V) := do
  let r ← K.rowsAt M deep A expr var (fold.map (·.1)) stop (K.directed A start stop step) A.rounds m start
    (match fold with | some (_, a) => a | none => K.dbl.ofNat 0)
  let m' ← freeTrees deep ps r.2.2
  match fold with
  | none => pure (some ⟨r.1, none⟩, hist, m')
  | some _ => pure (some ⟨r.1, some r.2.1⟩, historyAdd hist r.2.1, m')

/-- cmd_table.c:126-128 -/
def foldVarsAt (m : Mem V) (f : Nat) : Out Bool := do
  let n ← countVariables deep m (some f)
  let a ← countNamed "x".toList deep m (some f)
  let b ← countNamed "y".toList deep m (some f)
  pure (n - a - b == 0)

/-- cmd_table.c:115-138 and what follows. -/
def tableFoldAt (A : Stepping V) (funs : List MemFun) (ms : MemSimp V) (c : Ctx) (hist : List V) (ps : List Nat)
    (expr : Nat) (var : Option Str) (start stop step : V) (m : Mem V) :
    List Str → Out (Option (TableOut V) × List V × Mem V)
  | [] => K.showAt M deep A hist ps expr var start stop step none m
  | more => do
    match ← K.parseAllAt M F deep strtod funs ms c more m with
    | (true, [f, i], m1) => do
      let b ← foldVarsAt deep m1 f
      if !b then abandonAt deep hist (ps ++ [f, i]) m1
      else do
        let n ← countVariables deep m1 (some i)
        if n ≠ 0 then abandonAt deep hist (ps ++ [f, i]) m1
        else do
          let a ← K.evaluateAt deep m1 (some i)
          K.showAt M deep A hist (ps ++ [f, i]) expr var start stop step (some (f, a)) m1
    | (_, qs, m1) => abandonAt deep hist (ps ++ qs) m1

/-- cmd_table.c:98-107: `none` if one of them is not constant. -/
def boundsAt (m : Mem V) (a b c : Nat) : Out (Option (V × V × V)) := do
  let i ← countVariables deep m (some a)
  let j ← countVariables deep m (some b)
  let k ← countVariables deep m (some c)
  if i ≠ 0 || j ≠ 0 || k ≠ 0 then pure none
  else do
    let x ← K.evaluateAt deep m (some a)
    let y ← K.evaluateAt deep m (some b)
    let z ← K.evaluateAt deep m (some c)
    pure (some (x, y, z))

/-- cmd_table.c:91-113 and what follows. -/
def tableBoundsAt (A : Stepping V) (funs : List MemFun) (ms : MemSimp V) (c : Ctx) (hist : List V) (expr : Nat)
    (var : Option Str) (bounds more : List Str) (m : Mem V) : Out (Option (TableOut V) × List V × Mem V) := do
  match ← K.parseAllAt M F deep strtod funs ms c bounds m with
  | (true, [p, q, r], m1) => do
    match ← K.boundsAt deep m1 p q r with
    | none => abandonAt deep hist [expr, p, q, r] m1
    | some (start, stop, step) =>
      if K.dbl.eq step (K.dbl.ofNat 0) then abandonAt deep hist [expr, p, q, r] m1
      else K.tableFoldAt M F deep strtod A funs ms c hist [expr, p, q, r] expr var start stop step m1 more
  | (_, ps, m1) => abandonAt deep hist (expr :: ps) m1

/-- cmd_table.c:63-89 and what follows.  `arith_parse_raw` and `arith_simplify` are what `arith_parse` does. -/
def tableExprAt (A : Stepping V) (funs : List MemFun) (ms : MemSimp V) (c : Ctx) (hist : List V) (m : Mem V) :
    List Str → Out (Option (TableOut V) × List V × Mem V)
  | e :: a :: b :: d :: more => do
    match ← K.arithParseAt M F deep strtod funs ms c e m with
    | (none, m1) => pure (none, hist, m1)
    | (some p, m1) => do
      let r ← listVarsAt 1 deep m1 (some p) [] true
      if !r.2.2 then abandonAt deep hist [p] r.1
      else K.tableBoundsAt M F deep strtod A funs ms c hist p r.2.1.head? [a, b, d] more r.1
  | _ => .ub

/-- `cmd_table_exec`, cmd_table.c:37-228: what is shown (`none` if the command failed), the history and the
memory. -/
def tableAt (A : Stepping V) (ms : MemSimp V) (s : MemSession V) (input : Str) :
    Out (Option (TableOut V) × List V × Mem V) :=
  let r := strSplit (input ++ [nul]) tableCommand.length tableDelims
  if r.2.length ≠ 4 ∧ r.2.length ≠ 6 then .ok (none, s.hist, s.mem)
  else do
    let (t, os) ← Out.of (stripAll r.1 r.2)
    K.tableExprAt M F deep strtod A s.funs ms s.ctx s.hist s.mem (os.map (cstrAt t))

end Machine

/-! ## The program with this command -/

/-- Inputs of five commands. -/
inductive Entry where
  | other (input : ProgramInput)
  | table (input : Str)

/-- One input. -/
def Machine.entryAt (K : Machine V ε) (M : Malloc V) (F : Finder V) (deep : Nat) (prop : Ctx)
    (strtod : Str → Option V) (A : Stepping V) (s : MemProgram V) : Entry → Out (MemProgram V)
  | .other i => K.programInputAt M F deep prop strtod s i
  | .table input => do
    let ms ← readSimp deep s.session.mem s.simp
    let r ← K.tableAt M F deep strtod A ms s.session input
    pure { s with session := { s.session with hist := r.2.1, mem := r.2.2 } }

/-- One input after the other. -/
def entriesAt (M : Malloc V) (F : Finder V) (deep : Nat) (prop : Ctx) (strtod : Str → Option V) (A : Stepping V) :
    MemProgram V → List (Machine V ε × Entry) → Out (MemProgram V)
  | s, [] => .ok s
  | s, (K, i) :: rest => do
    let s' ← K.entryAt M F deep prop strtod A s i
    entriesAt M F deep prop strtod A s' rest

end Verif
