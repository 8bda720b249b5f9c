import Verif.Lemmas.TableHeap
import Verif.Props.ProgramMemory

/-!
# C104: the table command in memory

Whatever is entered after `table`, and wherever the command is left (label `exit` in
src/client/commands/cmd_table.c), the nodes in memory are those from before.  As for the program as a whole this is
partial for the reason C103 is: rule files that are not well-formed.
-/

namespace Verif.TableMemoryProps
open Verif OwnershipSpec MemorySpec EvaluationMemoryProps OwnershipProps
variable {V ε : Type}

/-- One row.  The trees of the expression and of the fold are in memory, possibly sharing nodes: the result and the value
of the fold are those computed with values, and the memory is as before. -/
theorem C104_row (K : Machine V ε) (M : Malloc V) (simp : Simp V) (strtod : Str → Option V) (A : Stepping V)
    {m : Mem V} {expr f : Tree V} {e q : Nat} {S T : List Nat} (he : OwnershipSpec.Holds m.get expr e S)
    (hf : OwnershipSpec.Holds m.get f q T)
    {deep : Nat} (hd : calls expr + calls f + 2 ≤ deep) {var : Option Str} {hist : List V} {x acc acc' : V} {r : Option V}
    (h : tableRow (tableProgram K simp strtod A) hist expr var (some f) () x acc = .ok ((), r, acc')) :
    ∃ m', K.rowAt M deep e var (some q) m x acc = .ok (r, acc', m') ∧ m'.get = m.get :=
  rowAt_spec K M simp strtod A he (fold := some f) (p := some q) ⟨T, hf⟩ (by simpa [keptCalls] using hd) h

/-- The command: it shows what it shows with values, the history is the same, and the memory is as before.  The context
is that of a calculator, the trees of its functions and of the rules are in memory. -/
theorem C104_table (K : Machine V ε) (M : Malloc V) {F : Finder V} (hF : Finds K.dbl.eq F) (strtod : Str → Option V)
    (A : Stepping V) {simp : Simp V} {s s' : Session V Unit} (hc : ArithLike s.ctx) {input : Str} {r : Option (TableOut V)}
    (h : tableExec (tableProgram K simp strtod A) s input = .ok (s', r)) :
    ∃ n, ∀ deep ≥ n, ∀ fs S ms m, Owned m.get s.funs fs S → StoredSimp m.get simp ms → ∃ m',
      K.tableAt M F deep strtod A ms ⟨s.ctx, fs, s.hist, m⟩ input = .ok (r, s'.hist, m') ∧ m'.get = m.get :=
  tableAt_spec K M hF strtod A hc h

/-- The program with this command: if the rule files are well-formed, what is in memory is what `ProgramInMemory` says,
and at the end the memory is as before. -/
theorem C104_program_partial (M : Malloc V) {F : Finder V} {prop : Ctx} (hprop : propCtx = .ok prop)
    {strtod : Str → Option V} (hstr : ∀ tok ∈ patternToks, strtod tok = none) (A : Stepping V)
    {xs : List (Machine V ε × Entry)} (hx : ∀ x ∈ xs, Finds x.1.dbl.eq F ∧ WellFormedEntry prop strtod x.2)
    {s : Session V Unit} {s' : ValueProgram V} (hi : initSession () = .ok s)
    (h : entriesOn prop strtod A ⟨s, ⟨false, fun _ => [], none, none, none⟩⟩ xs = .ok s') :
    ∃ n, ∀ deep ≥ n, ∀ m : Mem V, ∃ sm m',
      entriesAt M F deep prop strtod A ⟨⟨s.ctx, [], s.hist, m⟩, .start⟩ xs = .ok sm ∧ ProgramInMemory m.get s' sm ∧
      endAt deep sm = .ok m' ∧ m'.get = m.get := by
  obtain ⟨⟨D, hs⟩, n1, h1⟩ := entriesAt_spec M hprop hstr A (s := ⟨s, ⟨false, fun _ => [], none, none, none⟩⟩)
    (initSession_sess hi) hx h
  obtain ⟨n2, h2⟩ := endAt_spec hs
  refine ⟨n1 + n2, fun deep hd m => ?_⟩
  obtain ⟨sm, e1, e2⟩ := h1 deep (by omega) m.get _ (ProgramMemoryProps.begun hi m)
  obtain ⟨m', e3, e4⟩ := h2 deep (by omega) m.get sm e2
  exact ⟨sm, m', e1, e2, e3, e4⟩

/-! ## Examples -/

/-- Natural numbers; at most eight rows. -/
def natSteps : Stepping Nat := ⟨(· + ·), id, 9⟩

/-- The calculator after a definition: what a table command shows, the history, and the number of nodes before and after
it.  There are no rules. -/
def shown (input : String) : Option (Option (TableOut Nat) × List Nat × Nat × Nat) :=
  match (initSession () : Res (Session Nat Unit)), propCtx with
  | .ok s, .ok prop =>
    match nine.entryAt bump reading 12 prop Verif.ParserProps.digit natSteps
        ⟨⟨s.ctx, [], s.hist, ⟨[], fun _ => none⟩⟩, .start⟩ (.other (.session (.definition "f(x)=sum(x,1)".toList))) with
    | .ok r =>
      match nine.tableAt bump reading 12 Verif.ParserProps.digit natSteps noMemSimp r.session input.toList with
      | .ok (t, hist, m) => some (t, hist, r.session.mem.cells.length, m.cells.length)
      | _ => none
    | _ => none
  | _, _ => none

set_option Elab.async false in
/-- A table with a fold; the result is in the history, and the five nodes of the function are what there is in memory.
Numbers greater than nine are errors in this arithmetic: the last row does not take part in the fold. -/
example : shown "table sum(x,f(x),2);1;4;1 fold sum(x,y);0" =
    some (some ⟨[⟨1, some 5⟩, ⟨2, some 7⟩, ⟨3, some 9⟩, ⟨4, none⟩], some 9⟩, [9], 5, 5) := by decide +kernel

set_option Elab.async false in
example : shown "table sum(x,1);1;2;1 fold sum(x,y);3" =
    some (some ⟨[⟨1, some 2⟩, ⟨2, some 3⟩], some 8⟩, [8], 5, 5) ∧
    shown "table 3;1;2;1" = some (some ⟨[⟨1, some 3⟩, ⟨2, some 3⟩], none⟩, [], 5, 5) := by
  constructor <;> decide +kernel

set_option Elab.async false in
/-- The ways to fail: two variables, no expression, a bound with a variable, no step, a bad fold, a bad start of the
fold, too few parts. -/
example : (["table sum(x,y);1;2;1", "table sum(;1;2;1", "table x;1;(;1", "table x;z;2;1", "table x;1;2;0",
      "table x;1;2;1 fold sum(x,z);1", "table x;1;2;1 fold sum(x,y);z", "table x;1;2;1 fold sum(x,y);)",
      "table x;1;2"].all fun i => decide (shown i = some (none, [], 5, 5))) = true := by decide +kernel

end Verif.TableMemoryProps
