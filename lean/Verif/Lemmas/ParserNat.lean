import Verif.Model.Parser
import Mathlib.Tactic.Basic

/-!
# Spaces and token numbers do not influence the parser
-/

namespace Verif
variable {V : Type}

/-- Renumbering of the tokens of a tree. -/
def Tree.mapTok (f : Nat → Nat) : Tree V → Tree V
  | .const v i => .const v (f i)
  | .var n x i => .var n x (f i)
  | .op o cs i => .op o (cs.map (Tree.mapTok f)) (f i)

@[simp] theorem Tree.mapTok_const (f : Nat → Nat) (v : V) (i : Nat) :
    (Tree.const v i).mapTok f = .const v (f i) := by rw [Tree.mapTok]
@[simp] theorem Tree.mapTok_var (f : Nat → Nat) (n : Str) (x i : Nat) :
    (Tree.var n x i : Tree V).mapTok f = .var n x (f i) := by rw [Tree.mapTok]
@[simp] theorem Tree.mapTok_op (f : Nat → Nat) (o : Op) (cs : List (Tree V)) (i : Nat) :
    (Tree.op o cs i).mapTok f = .op o (cs.map (Tree.mapTok f)) (f i) := by rw [Tree.mapTok]

def PRes.mapTok (f : Nat → Nat) : PRes V → PRes V
  | .ok t => .ok (t.mapTok f)
  | .err e k => .err e (f k)
  | .okUninit => .okUninit
  | .ub => .ub

def OpData.mapTok (f : Nat → Nat) (d : OpData) : OpData := { d with token := f d.token }

def PopErr.mapTok (f : Nat → Nat) : PopErr → PopErr
  | .wrongArity k => .wrongArity (f k)
  | .underflow => .underflow
  | .ub => .ub

def PState.mapTok (f : Nat → Nat) (st : PState V) : PState V :=
  ⟨st.nodes.map (Tree.mapTok f), st.ops.map (OpData.mapTok f), st.awaitInfix, st.awaitParams⟩

/-- Result of stack operations. -/
def mapStacks (f : Nat → Nat) :
    Except PopErr (List (Tree V) × List OpData) → Except PopErr (List (Tree V) × List OpData)
  | .error e => .error (e.mapTok f)
  | .ok (ns, ds) => .ok (ns.map (Tree.mapTok f), ds.map (OpData.mapTok f))

def mapNodes (f : Nat → Nat) :
    Except PopErr (List (Tree V)) → Except PopErr (List (Tree V))
  | .error e => .error (e.mapTok f)
  | .ok ns => .ok (ns.map (Tree.mapTok f))

def mapStep (f : Nat → Nat) : Except (PRes V) (PState V) → Except (PRes V) (PState V)
  | .error e => .error (e.mapTok f)
  | .ok st => .ok (st.mapTok f)

variable (f : Nat → Nat)

theorem popInsert_nat (o : Op) (d : OpData) (nodes : List (Tree V)) :
    popInsert o (d.mapTok f) (nodes.map (Tree.mapTok f)) = mapNodes f (popInsert o d nodes) := by
  unfold popInsert OpData.mapTok
  simp only [List.length_map]
  split
  · rfl
  · split
    · rfl
    · split
      · rfl
      · simp [mapNodes, List.map_take, List.map_drop]

theorem popWhile_nat (p : Op → Bool) (nodes : List (Tree V)) (ops : List OpData) :
    popWhile p (nodes.map (Tree.mapTok f)) (ops.map (OpData.mapTok f))
      = mapStacks f (popWhile p nodes ops) := by
  induction ops generalizing nodes with
  | nil => rfl
  | cons d ds ih =>
    obtain ⟨op, a, k⟩ := d
    cases op with
    | none => rfl
    | some o =>
      have hop : (OpData.mapTok f ⟨some o, a, k⟩).op = some o := rfl
      simp only [List.map_cons, popWhile, hop]
      rw [popInsert_nat]
      cases p o with
      | false => rfl
      | true =>
        simp only [if_true]
        cases popInsert o ⟨some o, a, k⟩ nodes with
        | error e => rfl
        | ok ns => exact ih ns

theorem pushOperator_nat (o : Op) (i : Nat) (nodes : List (Tree V)) (ops : List OpData) :
    pushOperator o (f i) (nodes.map (Tree.mapTok f)) (ops.map (OpData.mapTok f))
      = mapStacks f (pushOperator o i nodes ops) := by
  unfold pushOperator
  split
  · rw [popWhile_nat]
    cases popWhile (pops o) nodes ops with
    | error e => rfl
    | ok r => rfl
  · rfl

theorem exit_nat (e : PopErr) : ((e.mapTok f).exit : PRes V) = e.exit.mapTok f := by
  cases e <;> rfl

theorem closing_nat (i : Nat) (e : PopErr) :
    ((e.mapTok f).closing (f i) : PRes V) = (e.closing i).mapTok f := by
  cases e <;> rfl

variable (E : Env) (strtod : Str → Option V)

theorem stepGlue_nat (i : Nat) (tok : Str) (st : PState V) :
    stepGlue E (f i) tok (st.mapTok f) = mapStep f (stepGlue E i tok st) := by
  obtain ⟨nodes, ops, aw, ap⟩ := st
  unfold stepGlue
  cases E.glue with
  | none => rfl
  | some g =>
    cases aw with
    | false => rfl
    | true =>
      cases isClosingParen tok with
      | true => rfl
      | false =>
        cases isDelimiter tok with
        | true => rfl
        | false =>
          cases E.lookup tok .infix with
          | some _ => rfl
          | none =>
            cases E.lookup tok .postfix with
            | some _ => rfl
            | none =>
              simp only [PState.mapTok, Bool.not_false, Bool.and_true, Option.isNone_none, if_true]
              rw [pushOperator_nat]
              cases pushOperator g i nodes ops with
              | error e => simp [mapStacks, mapStep, exit_nat]
              | ok r =>
                obtain ⟨ns, ds⟩ := r
                cases ds <;> rfl

theorem stepClosing_nat (i : Nat) (st : PState V) :
    stepClosing (f i) (st.mapTok f) = mapStep f (stepClosing i st) := by
  obtain ⟨nodes, ops, aw, ap⟩ := st
  unfold stepClosing
  simp only [PState.mapTok]
  rw [popWhile_nat]
  cases popWhile (fun _ => true) nodes ops with
  | error e => simp [mapStacks, mapStep, closing_nat]
  | ok r =>
    obtain ⟨ns, ds⟩ := r
    cases ds with
    | nil => rfl
    | cons d ds =>
      simp only [mapStacks, List.map_cons]
      cases aw with
      | true =>
        simp only [if_true]
        cases ds with
        | nil => rfl
        | cons d' ds =>
          obtain ⟨op, a, k⟩ := d'
          cases op with
          | none => rfl
          | some o =>
            simp only [List.map_cons, OpData.mapTok]
            split <;> rfl
      | false =>
        simp only [Bool.false_eq_true, if_false]
        cases ds with
        | nil => rfl
        | cons d' ds =>
          obtain ⟨op, a, k⟩ := d'
          cases op with
          | none => rfl
          | some o =>
            simp only [List.map_cons, OpData.mapTok]
            split <;> rfl

theorem stepDelimiter_nat (i : Nat) (st : PState V) :
    stepDelimiter (f i) (st.mapTok f) = mapStep f (stepDelimiter i st) := by
  obtain ⟨nodes, ops, aw, ap⟩ := st
  unfold stepDelimiter
  cases aw with
  | false => rfl
  | true =>
    simp only [PState.mapTok, Bool.not_true, Bool.false_eq_true, if_false]
    rw [popWhile_nat]
    cases popWhile (fun _ => true) nodes ops with
    | error e => simp [mapStacks, mapStep, exit_nat]
    | ok r =>
      obtain ⟨ns, ds⟩ := r
      cases ds with
      | nil => rfl
      | cons d ds =>
        cases ds with
        | nil => rfl
        | cons d' ds =>
          obtain ⟨op, a, k⟩ := d'
          cases op with
          | none => rfl
          | some o =>
            simp only [mapStacks, List.map_cons, OpData.mapTok]
            split <;> rfl

theorem stepLeaf_nat (i : Nat) (tok : Str) (st : PState V) :
    stepLeaf E strtod (f i) tok (st.mapTok f) = mapStep f (stepLeaf E strtod i tok st) := by
  obtain ⟨nodes, ops, aw, ap⟩ := st
  unfold stepLeaf
  simp only [PState.mapTok]
  split
  · simp [mapStep, PState.mapTok]
  · split
    · rfl
    · split
      · rfl
      · simp [mapStep, PState.mapTok]

theorem stepOperand_nat (i : Nat) (tok : Str) (st : PState V) :
    stepOperand E strtod (f i) tok (st.mapTok f) = mapStep f (stepOperand E strtod i tok st) := by
  obtain ⟨nodes, ops, aw, ap⟩ := st
  unfold stepOperand
  rw [stepLeaf_nat]
  split
  · rename_i g _
    simp only [PState.mapTok]
    rw [pushOperator_nat]
    cases pushOperator g i nodes ops with
    | error e => simp [mapStacks, mapStep, exit_nat]
    | ok r =>
      obtain ⟨ns, ds⟩ := r
      simp only [mapStacks]
      split
      · cases ds with
        | nil => rfl
        | cons d ds =>
          simp only [List.map_cons]
          rw [popInsert_nat]
          cases popInsert g d ns with
          | error e => simp [mapNodes, mapStep, exit_nat]
          | ok ns' => rfl
      · rfl
  · split
    · rename_i g _
      simp only [PState.mapTok]
      rw [pushOperator_nat]
      cases pushOperator g i nodes ops with
      | error e => simp [mapStacks, mapStep, exit_nat]
      | ok r => rfl
    · rfl

theorem stepOperator_nat (i : Nat) (tok : Str) (st : PState V) :
    stepOperator E (f i) tok (st.mapTok f) = mapStep f (stepOperator E i tok st) := by
  obtain ⟨nodes, ops, aw, ap⟩ := st
  unfold stepOperator
  split
  · rename_i g _
    simp only [PState.mapTok]
    rw [pushOperator_nat]
    cases pushOperator g i nodes ops with
    | error e => simp [mapStacks, mapStep, exit_nat]
    | ok r => rfl
  · split
    · rename_i g _
      simp only [PState.mapTok]
      rw [pushOperator_nat]
      cases pushOperator g i nodes ops with
      | error e => simp [mapStacks, mapStep, exit_nat]
      | ok r =>
        obtain ⟨ns, ds⟩ := r
        cases ds with
        | nil => rfl
        | cons d ds =>
          simp only [mapStacks, List.map_cons]
          rw [popInsert_nat]
          cases popInsert g d ns with
          | error e => cases e <;> rfl
          | ok ns' => rfl
    · rfl

theorem stepRest_nat (i : Nat) (tok : Str) (st : PState V) :
    stepRest E strtod (f i) tok (st.mapTok f) = mapStep f (stepRest E strtod i tok st) := by
  unfold stepRest
  rw [stepClosing_nat, stepDelimiter_nat, stepOperator_nat, stepOperand_nat]
  obtain ⟨nodes, ops, aw, ap⟩ := st
  cases isOpeningParen tok with
  | true => cases aw <;> rfl
  | false =>
    cases ap with
    | true => rfl
    | false =>
      cases isClosingParen tok with
      | true => rfl
      | false =>
        cases isDelimiter tok with
        | true => rfl
        | false => cases aw <;> rfl

theorem stepTok_nat (i : Nat) (tok : Str) (st : PState V) :
    stepTok E strtod (f i) tok (st.mapTok f) = mapStep f (stepTok E strtod i tok st) := by
  unfold stepTok
  split
  · rfl
  · rw [stepGlue_nat]
    cases stepGlue E i tok st with
    | error e => rfl
    | ok st1 => exact stepRest_nat f E strtod i tok st1

theorem runToks_nat (toks : List (Nat × Str)) (st : PState V) :
    runToks E strtod (toks.map fun x => (f x.1, x.2)) (st.mapTok f)
      = mapStep f (runToks E strtod toks st) := by
  induction toks generalizing st with
  | nil => rfl
  | cons x toks ih =>
    obtain ⟨i, tok⟩ := x
    simp only [List.map_cons, runToks]
    rw [stepTok_nat]
    cases stepTok E strtod i tok st with
    | error e => rfl
    | ok st1 => exact ih st1

theorem finish_nat (n : Nat) (st : PState V) :
    finish (f n) (st.mapTok f) = (finish n st).mapTok f := by
  obtain ⟨nodes, ops, aw, ap⟩ := st
  unfold finish
  cases ap with
  | true => rfl
  | false =>
    cases aw with
    | false => rfl
    | true =>
      simp only [PState.mapTok, Bool.not_true, Bool.false_eq_true, if_false]
      rw [popWhile_nat]
      cases popWhile (fun _ => true) nodes ops with
      | error e => simp [mapStacks, exit_nat]
      | ok r =>
        obtain ⟨ns, ds⟩ := r
        cases ns <;> cases ds <;> rfl

/-- Renumbering the tokens renumbers the result. -/
theorem parseIdx_nat (toks : List (Nat × Str)) (n : Nat) :
    parseIdx E strtod (toks.map fun x => (f x.1, x.2)) (f n)
      = (parseIdx E strtod toks n).mapTok f := by
  unfold parseIdx
  have := runToks_nat f E strtod toks PState.init
  have hi : (PState.init : PState V).mapTok f = PState.init := rfl
  rw [hi] at this
  rw [this]
  cases runToks E strtod toks PState.init with
  | error e => rfl
  | ok st => exact finish_nat f n st

/-- Spaces are skipped. -/
theorem runToks_filter (toks : List (Nat × Str)) (st : PState V) :
    runToks E strtod toks st
      = runToks E strtod (toks.filter fun x => !headIs isSpace x.2) st := by
  induction toks generalizing st with
  | nil => rfl
  | cons x toks ih =>
    obtain ⟨i, tok⟩ := x
    rw [List.filter_cons]
    cases hsp : headIs isSpace tok with
    | true => simp [runToks, stepTok, hsp, ih]
    | false =>
      simp only [runToks, Bool.not_false, if_true]
      cases stepTok E strtod i tok st with
      | error e => rfl
      | ok st1 => exact ih st1

theorem parseIdx_filter (toks : List (Nat × Str)) (n : Nat) :
    parseIdx E strtod toks n
      = parseIdx E strtod (toks.filter fun x => !headIs isSpace x.2) n := by
  unfold parseIdx
  rw [← runToks_filter]

end Verif
