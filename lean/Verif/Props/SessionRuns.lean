import Verif.Props.Session

/-!
# Concrete sessions: cases that meet the hypotheses, and counterexamples

The client `K0` has the numbers 0 to 9 and does no simplification; `K1` also reports
divisions by zero.
-/

namespace Verif.SessionProps
open Verif ParserProps

/-- One-digit numbers, no simplification. -/
def K0 : Client Nat Unit Unit := ⟨digit, fun a b => a == b, fun _ _ t => .ok ((), .ok t), 1000⟩

/-- Reports division by the constant zero as an error. -/
def K1 : Client Nat Unit Unit :=
  { K0 with simp := fun _ _ t => match t with
      | .op o [_, .const 0 _] _ => .ok ((), if o.name = "/".toList then .error () else .ok t)
      | t => .ok ((), .ok t) }

/-- What a command answers. -/
inductive Reply where
  | status (b : Bool)
  | value (t : Option (Tree Nat))
deriving DecidableEq

/-- Definition, clearing and evaluation are tried in this order
(src/client/commands/commands.c:29-34). -/
def enter (K : Client Nat Unit Unit) (s : Session Nat Unit) (line : Str) : Out (Session Nat Unit × Reply) :=
  if definitionCheck line then do
    let (s, b) ← definitionExec K s line
    pure (s, .status b)
  else if clearCheck line then do
    let (s, b) ← Out.of (clearExec s line)
    pure (s, .status b)
  else do
    let (s, r) ← evaluationExec K s line
    pure (s, .value r)

def enterAll (K : Client Nat Unit Unit) : List String → Session Nat Unit → Out (Session Nat Unit × List Reply)
  | [], s => .ok (s, [])
  | i :: is, s => do
    let (s, b) ← enter K s i.toList
    let (s, bs) ← enterAll K is s
    pure (s, b :: bs)

def runState (K : Client Nat Unit Unit) (is : List String) : Out (Session Nat Unit × List Reply) := do
  let s ← Out.of (initSession ())
  enterAll K is s

/-- The replies of a session. -/
def run (K : Client Nat Unit Unit) (is : List String) : Out (List Reply) := do
  let r ← runState K is
  pure r.2

theorem enter_reach {K : Client Nat Unit Unit} {s s' : Session Nat Unit} {line : Str} {r : Reply}
    (hs : Reachable K s) (h : enter K s line = .ok (s', r)) : Reachable K s' := by
  unfold enter at h
  split at h
  · rename_i hd
    obtain ⟨⟨s1, b⟩, h1, h2⟩ := Out.bind_eq_ok.1 h
    cases h2
    exact .define hs trivial hd h1
  · split at h
    · rename_i hc
      obtain ⟨⟨s1, b⟩, h1, h2⟩ := Out.bind_eq_ok.1 h
      cases h2
      exact .clear hs trivial hc (Out.of_eq_ok.1 h1)
    · obtain ⟨⟨s1, b⟩, h1, h2⟩ := Out.bind_eq_ok.1 h
      cases h2
      exact .evaluate hs h1

theorem enterAll_reach {K : Client Nat Unit Unit} : ∀ (is : List String) {s s' : Session Nat Unit} {r : List Reply},
    Reachable K s → enterAll K is s = .ok (s', r) → Reachable K s' := by
  intro is
  induction is with
  | nil => intro s s' r hs h; cases h; exact hs
  | cons i is ih =>
    intro s s' r hs h
    obtain ⟨⟨s1, b⟩, h1, h2⟩ := Out.bind_eq_ok.1 h
    obtain ⟨⟨s2, bs⟩, h3, h4⟩ := Out.bind_eq_ok.1 h2
    cases h4
    exact ih (enter_reach hs h1) h3

/-- Every session that has been run ends in a state as in the theorems. -/
theorem run_reach {K : Client Nat Unit Unit} {is : List String} {s : Session Nat Unit} {r : List Reply}
    (h : runState K is = .ok (s, r)) : Reachable K s := by
  obtain ⟨s0, h1, h2⟩ := Out.bind_eq_ok.1 h
  exact enterAll_reach is (.start (Out.of_eq_ok.1 h1)) h2

theorem run_state {K : Client Nat Unit Unit} {is : List String} {r : List Reply} (h : run K is = .ok r) :
    ∃ s, Reachable K s ∧ runState K is = .ok (s, r) := by
  obtain ⟨⟨s, r'⟩, h1, h2⟩ := Out.bind_eq_ok.1 h
  cases h2
  exact ⟨s, run_reach h1, h1⟩

/-! ## Cases that meet the hypotheses -/

theorem K0_keeps : SimpKeeps K0 := by
  intro w h t w' u ht hs
  cases hs
  exact ht

theorem K0_safe : SimpSafe K0 := fun _ _ t _ => .inr ⟨((), .ok t), rfl⟩

/-- Nested calls, a function using another one, and parameters that are swapped: `g(1,2)`
is expanded to `(2+1)*(1+1)`, the sum in the second argument included. -/
example : (run K0 ["f(x)=x+1", "g(x,y)=f(y)*f(x)", "c=3", "g(c,f(2))"]).bind (fun r => .ok (r.take 3)) =
    .ok [.status true, .status true, .status true] := by decide +kernel

/-- The shape of a tree. -/
def shape : Tree Nat → String
  | .const v _ => toString v
  | .var n _ _ => String.ofList n
  | .op o cs _ => String.ofList o.name ++ "(" ++ shapes cs ++ ")"
where shapes : List (Tree Nat) → String
  | [] => ""
  | [c] => shape c
  | c :: cs => shape c ++ "," ++ shapes cs

example : (run K0 ["f(x)=x+1", "g(x,y)=f(y)*f(x)", "c=3", "g(c,f(2))"]).bind (fun r => .ok (r.drop 3 |>.map fun
      | .value (some t) => shape t
      | _ => "")) = .ok ["*(+(+(2,1),1),+(3,1))"] := by decide +kernel

/-- Failed definitions: a name that is taken, a definition in terms of itself, two equal
parameters, a parameter that is no variable, an unbound variable, a missing right
side. -/
example : run K0 ["f(x)=x+1", "f(x)=x", "g(x)=g(x)+1", "h(x,x)=x", "h(2)=x", "h(x)=y", "h(x)=", "sin(x)=x"] =
    .ok [.status true, .status false, .status false, .status false, .status false, .status false, .status false,
      .status false] := by decide +kernel

/-- `clear`, `clear f`, and after that the names are free again. -/
example : run K0 ["f(x)=x+1", "clear g", "clear f", "f(x)=x", "g=2", "clear", "f=1"] =
    .ok [.status true, .status false, .status true, .status true, .status true, .status true, .status true] := by
  decide +kernel

theorem delimsOk_of {text : Str}
    (h : (match arithCtx with | .ok c => delimsOk false [] (tokenize c.keywords text) | _ => false) = true) :
    DelimsOk text := by
  obtain ⟨c, h1, h2⟩ := arithCtx_ok
  intro c' hc'
  rw [h1] at h
  rw [hc'.tokenize h2]
  exact h

/-- C34 applies to the definition `g(x,y)=f(x,y)+1`. -/
example : DelimsOk "g(x,y)".toList ∧ DelimsOk "f(x,y)+1".toList ∧ '=' ∉ "g(x,y)".toList :=
  ⟨delimsOk_of (by decide +kernel), delimsOk_of (by decide +kernel), by decide⟩

/-! ## Counterexamples -/

/-- **C34** fails: if the simplification of the right side reports an error, NULL is
dereferenced (cmd_definition.c:148 checks the wrong pointer). -/
theorem C34_error_crashes : run K1 ["f=1/0"] = .ub := by decide +kernel

/-- The same for every right side. -/
theorem C34_error_crashes_general {V ε ρ : Type} (K : Client V ε ρ) (s : Session V ρ) (c : Ctx) (name right : Str)
    (left rt : Tree V) (newOp : Op) (w : ρ) (hp : parseEasy c K.strtod right = .ok (some rt))
    (hn : findOpNode newOp.id rt [] = none)
    (he : arithSimplify K s.funs s.hist s.world rt = .ok (w, none)) :
    addFunctionRight K s c name right left newOp = .ub := by
  simp [addFunctionRight, hp, hn, he]

/-- **C34** fails: a comma inside of parentheses on the left side (see C14). -/
theorem C34_comma_crashes : run K0 ["f((x,y))=1"] = .ub := by decide +kernel

/-- **C37** fails: after `clear f` the numbers of `g` and of the new function `h` are the
same, and `h(3)` is evaluated to `3+1`, with the definition of `g`. -/
theorem C37_other_definition :
    (run K0 ["f(x)=x", "g(x)=x+1", "clear f", "h(x)=x+2", "h(3)"]).bind (fun r => .ok (r.map fun
      | .value (some t) => shape t
      | .status true => "yes"
      | _ => "no")) = .ok ["yes", "yes", "yes", "yes", "+(3,1)"] := by decide +kernel

/-- **C37** fails: `h` is not defined by itself, but rejected as recursive because `g` has
got the same number. -/
theorem C37_false_recursion :
    run K0 ["f(x)=x", "g(x)=x+1", "clear f", "h(x)=g(x)"] =
      .ok [.status true, .status true, .status true, .status false] := by decide +kernel

/-- Without `clear f` the same definition is accepted. -/
example : run K0 ["g(x)=x+1", "h(x)=g(x)"] = .ok [.status true, .status true] := by decide +kernel

/-- **C32** fails for parameters in brackets, which are list variables: the second
parameter takes both arguments, and the sum gets three operands. -/
theorem C32_brackets :
    (run K0 ["f([x],[y])=[y]+1", "f(1,2)"]).bind (fun r => .ok (r.map fun
      | .value (some t) => shape t
      | .status true => "yes"
      | _ => "no")) = .ok ["yes", "+(1,2,1)"] := by decide +kernel

/-- With such a parameter as the body the program aborts. -/
theorem C32_brackets_abort : run K0 ["f([x],[y])=[y]", "f(1,2)"] = .defect := by decide +kernel

/-- **C36**: the character after `clear` is not looked at: `clearxf` clears `f`. -/
theorem C36_any_separator : run K0 ["f(x)=x", "clearxf"] = .ok [.status true, .status true] := by decide +kernel

/-- **C36**: a blank after the name makes it another name. -/
theorem C36_trailing_blank : run K0 ["f(x)=x", "clear f "] = .ok [.status true, .status false] := by decide +kernel

end Verif.SessionProps
