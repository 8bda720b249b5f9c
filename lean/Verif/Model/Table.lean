import Verif.Model.Session
import Verif.Model.StringUtil

/-!
# The table command (src/client/commands/cmd_table.c)

What is printed is in `Model/TableOutput` (and for the layout of tables see `Model/TableLayout`); the command here returns
the rows it would print and the result of the fold.
-/

namespace Verif
variable {V ε ρ : Type}

/-- What the commands are parametrised with in addition to `Client`: `tree_reduce` with
`arith_op_evaluate` (the value, or an error), the number 0, comparisons and arithmetic of
doubles, a bound `rounds` for the loop of the table command (`hang` if it is exceeded), the
contents of files, and `init_simplification`, which depends on the context; its result is false
for "not readable". -/
structure Program (V ε ρ : Type) extends Client V ε ρ where
  reduce : ρ → List V → Tree V → Out (ρ × Except ε V)
  zero : V
  lt : V → V → Bool
  le : V → V → Bool
  add : V → V → V
  neg : V → V
  rounds : Nat
  files : Str → Option Str
  initSimp : ρ → Ctx → Str → Out (ρ × Bool)

/-- `arith_evaluate`, src/client/core/arith_evaluation.c:381-386: errors give 0. -/
def arithEvaluate (K : Program V ε ρ) (w : ρ) (hist : List V) (t : Tree V) : Out (ρ × V) := do
  let (w', r) ← K.reduce w hist t
  match r with
  | .ok v => pure (w', v)
  | .error _ => pure (w', K.zero)

/-- A row: the value of the variable, and the value of the expression unless there was an
error. -/
structure TableRow (V : Type) where
  pos : V
  value : Option V
deriving DecidableEq, Repr

/-- The expression of a row, src/client/commands/cmd_table.c:170-172.  Without a variable `var` is
uninitialised, but then there is nothing to replace. -/
def rowTree (var : Option Str) (x : V) (t : Tree V) : Tree V :=
  match var with
  | none => treeCopy t
  | some n => (replaceVar (.const x 0) n (treeCopy t)).1

/-- The fold expression with its variables replaced, cmd_table.c:186-190. -/
def foldTree (x y : V) (t : Tree V) : Tree V :=
  (replaceVar (.const y 0) "y".toList (replaceVar (.const x 0) "x".toList (treeCopy t)).1).1

/-- cmd_table.c:184-195; `none` if there is no fold expression. -/
def foldStep (K : Program V ε ρ) (hist : List V) (fold : Option (Tree V)) (w : ρ) (acc v : V) : Out (ρ × V) :=
  match fold with
  | none => .ok (w, acc)
  | some f => arithEvaluate K w hist (foldTree acc v f)

/-- The body of the loop, cmd_table.c:170-205. -/
def tableRow (K : Program V ε ρ) (hist : List V) (expr : Tree V) (var : Option Str) (fold : Option (Tree V))
    (w : ρ) (x acc : V) : Out (ρ × Option V × V) := do
  let (w1, r) ← K.reduce w hist (rowTree var x expr)
  match r with
  | .ok v => do
    let (w2, acc') ← foldStep K hist fold w1 acc v
    pure (w2, some v, acc')
  | .error _ => pure (w1, none, acc)

/-- The condition of the loop, cmd_table.c:168. -/
def inRange (K : Program V ε ρ) (stop step x : V) : Bool :=
  if K.lt K.zero step then K.le x stop else K.le stop x

/-- The loop, cmd_table.c:168-206. -/
def tableLoop (K : Program V ε ρ) (hist : List V) (expr : Tree V) (var : Option Str) (fold : Option (Tree V))
    (stop step : V) : (rounds : Nat) → ρ → (x acc : V) → Out (ρ × List (TableRow V) × V)
  | 0, _, _, _ => .hang
  | k + 1, w, x, acc =>
    if inRange K stop step x then do
      let (w1, v, acc1) ← tableRow K hist expr var fold w x acc
      let (w2, rows, acc2) ← tableLoop K hist expr var fold stop step k w1 (K.add x step) acc1
      pure (w2, ⟨x, v⟩ :: rows, acc2)
    else .ok (w, [], acc)

/-- The direction of the steps, cmd_table.c:141-146. -/
def tableStep (K : Program V ε ρ) (start stop step : V) : V :=
  if (K.lt start stop && K.lt step K.zero) || (K.lt stop start && K.lt K.zero step) then K.neg step else step

/-- What the command shows: the rows and the result of the fold. -/
structure TableOut (V : Type) where
  rows : List (TableRow V)
  fold : Option V
deriving DecidableEq, Repr

/-- cmd_table.c:141-216: the loop, and the fold result is added to the history. -/
def tableShow (K : Program V ε ρ) (s : Session V ρ) (expr : Tree V) (var : Option Str)
    (start stop step : V) (fold : Option (Tree V × V)) : Out (Session V ρ × Option (TableOut V)) := do
  let (w, rows, acc) ← tableLoop K s.hist expr var (fold.map (·.1)) stop (tableStep K start stop step) K.rounds
    s.world start (match fold with | some (_, a) => a | none => K.zero)
  match fold with
  | none => pure ({ s with world := w }, some ⟨rows, none⟩)
  | some _ => pure ({ s with world := w, hist := historyAdd s.hist acc }, some ⟨rows, some acc⟩)

/-- `arith_parse` of several texts up to the first failure, cmd_table.c:91-96, 120-124. -/
def parseAll (K : Client V ε ρ) (s : Session V ρ) : List Str → Out (Session V ρ × Option (List (Tree V)))
  | [] => .ok (s, some [])
  | t :: ts => do
    match ← arithParse K s t with
    | (s1, none) => pure (s1, none)
    | (s1, some u) => do
      let (s2, us) ← parseAll K s1 ts
      pure (s2, us.map (u :: ·))

/-- The fold expression has no other variables than x and y: cmd_table.c:126-128.  The
subtraction is that of `size_t`; it does not go below 0. -/
def foldVarsOk (f : Tree V) : Bool :=
  countVars f - (varNodes "x".toList f [] 0 0).1 - (varNodes "y".toList f [] 0 0).1 == 0

/-- cmd_table.c:115-138 and what follows: the fold part. -/
def tableFold (K : Program V ε ρ) (s : Session V ρ) (expr : Tree V) (var : Option Str) (start stop step : V) :
    List Str → Out (Session V ρ × Option (TableOut V))
  | [] => tableShow K s expr var start stop step none
  | more => do
    match ← parseAll K.toClient s more with
    | (s1, some [f, i]) =>
      if !foldVarsOk f then pure (s1, none)
      else if countVars i ≠ 0 then pure (s1, none)
      else do
        let (w, a) ← arithEvaluate K s1.world s1.hist i
        tableShow K { s1 with world := w } expr var start stop step (some (f, a))
    | (s1, _) => pure (s1, none)

/-- cmd_table.c:91-113: the bounds. -/
def tableBounds (K : Program V ε ρ) (s : Session V ρ) (expr : Tree V) (var : Option Str) (bounds more : List Str) :
    Out (Session V ρ × Option (TableOut V)) := do
  match ← parseAll K.toClient s bounds with
  | (s1, some [a, b, c]) =>
    if countVars a ≠ 0 || countVars b ≠ 0 || countVars c ≠ 0 then pure (s1, none)
    else do
      let (w1, start) ← arithEvaluate K s1.world s1.hist a
      let (w2, stop) ← arithEvaluate K w1 s1.hist b
      let (w3, step) ← arithEvaluate K w2 s1.hist c
      if K.eqV step K.zero then pure ({ s1 with world := w3 }, none)
      else tableFold K { s1 with world := w3 } expr var start stop step more
  | (s1, _) => pure (s1, none)

/-- cmd_table.c:63-89, and what follows: the expression. -/
def tableExpr (K : Program V ε ρ) (s : Session V ρ) : List Str → Out (Session V ρ × Option (TableOut V))
  | e :: a :: b :: c :: more => do
    match ← arithParse K.toClient s e with
    | (s1, none) => pure (s1, none)
    | (s1, some t) =>
      let r := listVariables 1 t
      if !r.sufficient then pure (s1, none)
      else tableBounds K s1 r.tree r.vars.head? [a, b, c] more
  | _ => .ub

/-- `COMMAND`, cmd_table.c:14 -/
def tableCommand : Str := "table ".toList

/-- `cmd_table_check`, cmd_table.c:22-25 -/
def tableCheck (input : Str) : Bool := beginsWith tableCommand input

/-- The delimiters of cmd_table.c:40 -/
def tableDelims : List Str := [";".toList, ";".toList, ";".toList, " fold ".toList, ";".toList]

/-- `cmd_table_exec`, cmd_table.c:37-228; `none` if the command failed. -/
def tableExec (K : Program V ε ρ) (s : Session V ρ) (input : Str) : Out (Session V ρ × Option (TableOut V)) :=
  let r := strSplit (input ++ [nul]) tableCommand.length tableDelims
  if r.2.length ≠ 4 ∧ r.2.length ≠ 6 then .ok (s, none)
  else do
    let (m, os) ← Out.of (stripAll r.1 r.2)
    tableExpr K s (os.map (cstrAt m))

end Verif
