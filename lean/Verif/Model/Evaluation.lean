import Verif.Model.Session

/-!
# Evaluation of operators (src/client/core/arith_evaluation.c)

What is done to doubles is a parameter `Arith V`.  Loops whose number of rounds depends
on the values get `fuel`; `hang` if it is exceeded.
-/

namespace Verif
variable {V : Type}

/-- The functions of math.h with one argument that are called. -/
inductive MathFn where
  | exp | sqrt | log | log2 | log10 | sin | cos | tan | asin | acos | atan | sinh | cosh | tanh
  | asinh | acosh | atanh | ceil | floor | round | trunc | fabs | tgamma
deriving DecidableEq, Repr

/-- What arith_evaluation.c does to doubles.  `literal` is a decimal constant of the
source text; `toInt`, `toLong` are the conversions to int and long, `none` if the value is out of range (undefined behaviour). -/
structure Arith (V : Type) where
  ofInt : Int → V
  literal : Rat → V
  infinity : V
  add : V → V → V
  sub : V → V → V
  mul : V → V → V
  div : V → V → V
  neg : V → V
  eq : V → V → Bool
  lt : V → V → Bool
  le : V → V → Bool
  isinf : V → Bool
  toInt : V → Option Int
  toLong : V → Option Int
  pow : V → V → V
  fmod : V → V → V
  fn : MathFn → V → V

/-- Error codes, src/client/core/arith_evaluation.h:6-12. -/
inductive ListenerErr where
  | historyNotSet | impossibleDeriv | malformedDerivA | malformedDerivB | unknownOp
  | divisionByZero | complexSolution
  | variableEncountered -- LISTENERERR_VARIABLE_ENCOUNTERED, src/engine/tree/tree_util.h:5
deriving DecidableEq, Repr

/-- Outcomes of an evaluation other than a value. -/
inductive EvalErr where
  | code (e : ListenerErr)
  | hang
  | ub
deriving DecidableEq, Repr

namespace Arith
variable (A : Arith V)

/-- `for (i = 0; i < num_args; i++) res += args[i]`, arith_evaluation.c:16-19, 309, 328. -/
def sum (args : List V) : V := args.foldl A.add (A.ofInt 0)

/-- The loop of line 316. -/
def prod (args : List V) : V := args.foldl A.mul (A.ofInt 1)

/-- `variance`, arith_evaluation.c:13-29 -/
def variance (args : List V) : V :=
  let n := A.ofInt args.length
  let u := A.div (A.sum args) n
  A.div (args.foldl (fun res a => A.add res (A.pow (A.sub a u) (A.ofInt 2))) (A.ofInt 0)) n

/-- The loop of `euclid`, arith_evaluation.c:42-52, with at most `fuel` rounds. -/
def euclidLoop : (fuel : Nat) → V → V → Option V
  | 0, _, _ => none
  | fuel + 1, a, b =>
    if A.eq b (A.ofInt 0) then some a
    else if A.lt b a then euclidLoop fuel (A.sub a b) b
    else euclidLoop fuel a (A.sub b a)

/-- `euclid`, arith_evaluation.c:31-55 -/
def euclid (fuel : Nat) (a b : V) : Option V :=
  let a := A.fn .fabs (A.fn .trunc a)
  let b := A.fn .fabs (A.fn .trunc b)
  if A.eq a (A.ofInt 0) then some b else A.euclidLoop fuel a b

/-- The loop of `binomial`, arith_evaluation.c:66-69, with at most `fuel` rounds. -/
def binomialLoop (n k : V) : (fuel : Nat) → (i res : V) → Option V
  | 0, _, _ => none
  | fuel + 1, i, res =>
    if A.le i k then
      binomialLoop n k fuel (A.add i (A.ofInt 1)) (A.div (A.mul res (A.add (A.sub n k) i)) i)
    else some res

/-- `binomial`, arith_evaluation.c:57-72 -/
def binomial (fuel : Nat) (n k : V) : Option V :=
  let n := A.fn .fabs (A.fn .trunc n)
  let k := A.fn .fabs (A.fn .trunc k)
  if A.eq k (A.ofInt 0) then some (A.ofInt 1)
  else
    let k := if A.lt n (A.mul (A.ofInt 2) k) then A.sub n k else k
    A.binomialLoop n k fuel (A.ofInt 1) (A.ofInt 1)

/-- The loop of `x!`, arith_evaluation.c:181-184, with at most `fuel` rounds. -/
def factorialLoop : (fuel : Nat) → (i res : V) → Option V
  | 0, _, _ => none
  | fuel + 1, i, res =>
    if A.lt (A.ofInt 1) i then factorialLoop fuel (A.sub i (A.ofInt 1)) (A.mul res i) else some res

/-- `x!`, arith_evaluation.c:172-188 -/
def factorial (fuel : Nat) (x : V) : Option V :=
  if A.isinf x then some A.infinity
  else A.factorialLoop fuel (A.fn .trunc x) (A.ofInt 1)

end Arith

/-- `LONG_MAX` on the usual 64-bit platforms. -/
def longMax : Int := 9223372036854775807

/-- `a + b` on long; `none` if it overflows, which is undefined. -/
def addLong : Option Int → Option Int → Option Int
  | some a, some b => if a + b ≤ longMax then some (a + b) else none
  | _, _ => none

/-- `fib`, arith_evaluation.c:74-80, on arguments that are not negative.  The size of the
stack is not limited. -/
def fibLong : Nat → Option Int
  | 0 => some 0
  | 1 => some 1
  | n + 2 => addLong (fibLong (n + 1)) (fibLong n)

/-- `fibonacci`, arith_evaluation.c:82-100; `none` is undefined behaviour: conversion
out of range, `labs(LONG_MIN)`, overflow.  `l % 2` is zero exactly for even `l`. -/
def Arith.fibonacci (A : Arith V) (n : V) : Option V :=
  match A.toLong n with
  | none => none
  | some l =>
    if l < 0 then
      if l = -longMax - 1 then none
      else if l % 2 = 0 then (fibLong l.natAbs).map fun x => A.ofInt (-x)
      else (fibLong l.natAbs).map A.ofInt
    else (fibLong l.natAbs).map A.ofInt

/-- `random_between`, arith_evaluation.c:105-112; `r` is the value of `rand()`. -/
def Arith.randomBetween (A : Arith V) (r : Nat) (min max : V) : Option V :=
  let min := A.fn .trunc min
  let max := A.fn .trunc max
  match A.toLong (A.sub max min) with
  | none => none
  | some diff =>
    if diff < 1 then some (A.ofInt (-1))
    else some (A.add (A.ofInt (r % diff)) min)

/-- `args[0]`. -/
def arg1 (f : V → Except EvalErr V) : List V → Except EvalErr V
  | a :: _ => f a
  | [] => .error .ub

/-- `args[0]` and `args[1]`. -/
def arg2 (f : V → V → Except EvalErr V) : List V → Except EvalErr V
  | a :: b :: _ => f a b
  | _ => .error .ub

/-- The result of a loop. -/
def looped : Option V → Except EvalErr V
  | some v => .ok v
  | none => .error .hang

/-- The result of something that may be undefined. -/
def defined : Option V → Except EvalErr V
  | some v => .ok v
  | none => .error .ub

/-- Result of `history_get` in arith_evaluation.c:123-131, 367-375 -/
def fromHistory : Option V → Except EvalErr V
  | some v => .ok v
  | none => .error (.code .historyNotSet)

/-- `(size_t)(int)`: the index of `@`, arith_evaluation.c:123. -/
def historyIndex (k : Int) : Nat := (k % (sizeMax + 1 : Int)).toNat

/-- `arith_op_evaluate`, arith_evaluation.c:114-379.  `rnd` is the value of `rand()`; the
program gets a new one for each call. -/
def evalOp (A : Arith V) (hist : List V) (rnd fuel : Nat) (o : Op) (args : List V) : Except EvalErr V :=
  match o.id with
  | 0 => arg1 (fun a => .ok a) args
  | 1 => arg1 (fun a =>
      match A.toInt a with
      | none => .error .ub
      | some k => fromHistory (historyGet hist (historyIndex k))) args
  | 2 => .error (.code .impossibleDeriv)
  | 3 => .error (.code .impossibleDeriv)
  | 4 => arg2 (fun a b => .ok (A.add a b)) args
  | 5 => arg2 (fun a b => .ok (A.sub a b)) args
  | 6 => arg2 (fun a b => .ok (A.mul a b)) args
  | 7 => arg2 (fun a b =>
      if A.eq b (A.ofInt 0) then .error (.code .divisionByZero) else .ok (A.div a b)) args
  | 8 => arg2 (fun a b =>
      if A.eq a (A.ofInt 0) && A.le b (A.ofInt 0) then .error (.code .divisionByZero)
      else if A.lt a (A.ofInt 0) && A.lt b (A.ofInt 1) then .error (.code .complexSolution)
      else .ok (A.pow a b)) args
  | 9 => arg2 (fun a b => looped (A.binomial fuel a b)) args
  | 10 => arg2 (fun a b => .ok (A.fmod a b)) args
  | 11 => arg1 (fun a => .ok a) args
  | 12 => arg1 (fun a => .ok (A.neg a)) args
  | 13 => arg1 (fun a => looped (A.factorial fuel a)) args
  | 14 => arg1 (fun a => .ok (A.div a (A.ofInt 100))) args
  | 15 => arg1 (fun a => .ok (A.fn .exp a)) args
  | 16 => arg2 (fun a b =>
      if A.le (A.ofInt 0) a then .ok (A.pow a (A.div (A.ofInt 1) b)) else .error (.code .complexSolution)) args
  | 17 => arg1 (fun a =>
      if A.le (A.ofInt 0) a then .ok (A.fn .sqrt a) else .error (.code .complexSolution)) args
  | 18 => arg2 (fun a b => .ok (A.div (A.fn .log a) (A.fn .log b))) args
  | 19 => arg1 (fun a => .ok (A.fn .log a)) args
  | 20 => arg1 (fun a => .ok (A.fn .log2 a)) args
  | 21 => arg1 (fun a => .ok (A.fn .log10 a)) args
  | 22 => arg1 (fun a => .ok (A.fn .sin a)) args
  | 23 => arg1 (fun a => .ok (A.fn .cos a)) args
  | 24 => arg1 (fun a => .ok (A.fn .tan a)) args
  | 25 => arg1 (fun a => .ok (A.fn .asin a)) args
  | 26 => arg1 (fun a => .ok (A.fn .acos a)) args
  | 27 => arg1 (fun a => .ok (A.fn .atan a)) args
  | 28 => arg1 (fun a => .ok (A.fn .sinh a)) args
  | 29 => arg1 (fun a => .ok (A.fn .cosh a)) args
  | 30 => arg1 (fun a => .ok (A.fn .tanh a)) args
  | 31 => arg1 (fun a => .ok (A.fn .asinh a)) args
  | 32 => arg1 (fun a => .ok (A.fn .acosh a)) args
  | 33 => arg1 (fun a => .ok (A.fn .atanh a)) args
  | 34 => .ok (args.foldl (fun res a => if A.lt res a then a else res) (A.neg A.infinity))
  | 35 => .ok (args.foldl (fun res a => if A.lt a res then a else res) A.infinity)
  | 36 => arg1 (fun a => .ok (A.fn .fabs a)) args
  | 37 => arg1 (fun a => .ok (A.fn .ceil a)) args
  | 38 => arg1 (fun a => .ok (A.fn .floor a)) args
  | 39 => arg1 (fun a => .ok (A.fn .round a)) args
  | 40 => arg1 (fun a => .ok (A.fn .trunc a)) args
  | 41 => arg1 (fun a => .ok (A.sub a (A.fn .floor a))) args
  | 42 => arg1 (fun a => .ok (if A.lt a (A.ofInt 0) then A.ofInt (-1)
      else if A.lt (A.ofInt 0) a then A.ofInt 1 else A.ofInt 0)) args
  | 43 => .ok (A.sum args)
  | 44 => .ok (A.prod args)
  | 45 => .ok (if args.isEmpty then A.ofInt 0 else A.div (A.sum args) (A.ofInt args.length))
  | 46 => arg2 (fun a b => looped (A.euclid fuel a b)) args
  | 47 => arg2 (fun a b => looped ((A.euclid fuel a b).map fun g =>
      A.div (A.fn .fabs (A.mul (A.fn .trunc a) (A.fn .trunc b))) g)) args
  | 48 => arg2 (fun a b => defined (A.randomBetween rnd a b)) args
  | 49 => arg1 (fun a => defined (A.fibonacci a)) args
  | 50 => arg1 (fun a => .ok (A.fn .tgamma a)) args
  | 51 => .ok (A.variance args)
  | 52 => .ok (A.literal (314159265359 / 100000000000))
  | 53 => .ok (A.literal (271828182846 / 100000000000))
  | 54 => .ok (A.literal (161803398874 / 100000000000))
  | 55 => .ok (A.ofInt 299792458)
  | 56 => .ok (A.literal (3432 / 10))
  | 57 => fromHistory (historyGet hist 0)
  | _ => .error (.code .unknownOp)

end Verif
