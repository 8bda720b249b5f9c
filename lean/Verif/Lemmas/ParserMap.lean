import Verif.Model.RuleParsing
import Mathlib.Tactic.Basic

/-!
# The parser treats values uniformly

Reading numbers in another way changes the constants of the tree and nothing else.
-/

namespace Verif
variable {V W : Type}

mutual
/-- Another value for each constant. -/
def Tree.mapVal (f : V → W) : Tree V → Tree W
  | .const v i => .const (f v) i
  | .var n x i => .var n x i
  | .op o cs i => .op o (Tree.mapVals f cs) i
def Tree.mapVals (f : V → W) : List (Tree V) → List (Tree W)
  | [] => []
  | c :: cs => Tree.mapVal f c :: Tree.mapVals f cs
end

theorem Tree.mapVals_eq (f : V → W) (cs : List (Tree V)) : Tree.mapVals f cs = cs.map (Tree.mapVal f) := by
  induction cs with
  | nil => rfl
  | cons c cs ih => simp only [Tree.mapVals, ih, List.map_cons]

@[simp] theorem Tree.mapVal_const (f : V → W) (v : V) (i : Nat) :
    (Tree.const v i).mapVal f = .const (f v) i := rfl
@[simp] theorem Tree.mapVal_var (f : V → W) (n : Str) (x i : Nat) :
    (Tree.var n x i : Tree V).mapVal f = .var n x i := rfl
@[simp] theorem Tree.mapVal_op (f : V → W) (o : Op) (cs : List (Tree V)) (i : Nat) :
    (Tree.op o cs i).mapVal f = .op o (cs.map (Tree.mapVal f)) i := by rw [Tree.mapVal, Tree.mapVals_eq]

def PRes.mapVal (f : V → W) : PRes V → PRes W
  | .ok t => .ok (t.mapVal f)
  | .err e k => .err e k
  | .okUninit => .okUninit
  | .ub => .ub

def PState.mapVal (f : V → W) (st : PState V) : PState W :=
  ⟨st.nodes.map (Tree.mapVal f), st.ops, st.awaitInfix, st.awaitParams⟩

def mapStacksV (f : V → W) :
    Except PopErr (List (Tree V) × List OpData) → Except PopErr (List (Tree W) × List OpData)
  | .error e => .error e
  | .ok (ns, ds) => .ok (ns.map (Tree.mapVal f), ds)

def mapNodesV (f : V → W) :
    Except PopErr (List (Tree V)) → Except PopErr (List (Tree W))
  | .error e => .error e
  | .ok ns => .ok (ns.map (Tree.mapVal f))

def mapStepV (f : V → W) : Except (PRes V) (PState V) → Except (PRes W) (PState W)
  | .error e => .error (e.mapVal f)
  | .ok st => .ok (st.mapVal f)

variable (f : V → W)

theorem popInsert_val (o : Op) (d : OpData) (nodes : List (Tree V)) :
    popInsert o d (nodes.map (Tree.mapVal f)) = mapNodesV f (popInsert o d nodes) := by
  unfold popInsert
  simp only [List.length_map]
  split
  · rfl
  · split
    · rfl
    · split
      · rfl
      · simp [mapNodesV, List.map_take, List.map_drop]

theorem popWhile_val (p : Op → Bool) (nodes : List (Tree V)) (ops : List OpData) :
    popWhile p (nodes.map (Tree.mapVal f)) ops
      = mapStacksV f (popWhile p nodes ops) := by
  induction ops generalizing nodes with
  | nil => rfl
  | cons d ds ih =>
    obtain ⟨op, a, k⟩ := d
    cases op with
    | none => rfl
    | some o =>
      simp only [popWhile]
      rw [popInsert_val]
      cases p o with
      | false => rfl
      | true =>
        simp only [if_true]
        cases popInsert o ⟨some o, a, k⟩ nodes with
        | error e => rfl
        | ok ns => exact ih ns

theorem pushOperator_val (o : Op) (i : Nat) (nodes : List (Tree V)) (ops : List OpData) :
    pushOperator o i (nodes.map (Tree.mapVal f)) ops
      = mapStacksV f (pushOperator o i nodes ops) := by
  unfold pushOperator
  split
  · rw [popWhile_val]
    cases popWhile (pops o) nodes ops with
    | error e => rfl
    | ok r => rfl
  · rfl

theorem exit_val (e : PopErr) : (e.exit : PRes V).mapVal f = (e.exit : PRes W) := by
  cases e <;> rfl

theorem closing_val (i : Nat) (e : PopErr) :
    (e.closing i : PRes V).mapVal f = (e.closing i : PRes W) := by
  cases e <;> rfl

variable (E : Env) (strtod : Str → Option V)

theorem stepGlue_val (i : Nat) (tok : Str) (st : PState V) :
    stepGlue E i tok (st.mapVal f) = mapStepV f (stepGlue E i tok st) := by
  obtain ⟨nodes, ops, aw, ap⟩ := st
  unfold stepGlue
  cases E.glue with
  | none => rfl
  | some g =>
    cases aw with
    | false => rfl
    | true =>
      cases isClosingParen tok with
      | true => rfl
      | false =>
        cases isDelimiter tok with
        | true => rfl
        | false =>
          cases E.lookup tok .infix with
          | some _ => rfl
          | none =>
            cases E.lookup tok .postfix with
            | some _ => rfl
            | none =>
              simp only [PState.mapVal, Bool.not_false, Bool.and_true, Option.isNone_none, if_true]
              rw [pushOperator_val]
              cases pushOperator g i nodes ops with
              | error e => simp [mapStacksV, mapStepV, exit_val]
              | ok r =>
                obtain ⟨ns, ds⟩ := r
                cases ds <;> rfl

theorem stepClosing_val (i : Nat) (st : PState V) :
    stepClosing i (st.mapVal f) = mapStepV f (stepClosing i st) := by
  obtain ⟨nodes, ops, aw, ap⟩ := st
  unfold stepClosing
  simp only [PState.mapVal]
  rw [popWhile_val]
  cases popWhile (fun _ => true) nodes ops with
  | error e => simp [mapStacksV, mapStepV, closing_val]
  | ok r =>
    obtain ⟨ns, ds⟩ := r
    cases ds with
    | nil => rfl
    | cons d ds =>
      simp only [mapStacksV]
      cases aw with
      | true =>
        simp only [if_true]
        cases ds with
        | nil => rfl
        | cons d' ds =>
          obtain ⟨op, a, k⟩ := d'
          cases op with
          | none => rfl
          | some o =>
            simp only
            split <;> rfl
      | false =>
        simp only [Bool.false_eq_true, if_false]
        cases ds with
        | nil => rfl
        | cons d' ds =>
          obtain ⟨op, a, k⟩ := d'
          cases op with
          | none => rfl
          | some o =>
            simp only
            split <;> rfl

theorem stepDelimiter_val (i : Nat) (st : PState V) :
    stepDelimiter i (st.mapVal f) = mapStepV f (stepDelimiter i st) := by
  obtain ⟨nodes, ops, aw, ap⟩ := st
  unfold stepDelimiter
  cases aw with
  | false => rfl
  | true =>
    simp only [PState.mapVal, Bool.not_true, Bool.false_eq_true, if_false]
    rw [popWhile_val]
    cases popWhile (fun _ => true) nodes ops with
    | error e => simp [mapStacksV, mapStepV, exit_val]
    | ok r =>
      obtain ⟨ns, ds⟩ := r
      cases ds with
      | nil => rfl
      | cons d ds =>
        cases ds with
        | nil => rfl
        | cons d' ds =>
          obtain ⟨op, a, k⟩ := d'
          cases op with
          | none => rfl
          | some o =>
            simp only [mapStacksV]
            split <;> rfl

theorem stepLeaf_val (i : Nat) (tok : Str) (st : PState V) :
    stepLeaf E (fun s => (strtod s).map f) i tok (st.mapVal f) = mapStepV f (stepLeaf E strtod i tok st) := by
  obtain ⟨nodes, ops, aw, ap⟩ := st
  unfold stepLeaf
  simp only [PState.mapVal]
  cases strtod tok with
  | some v => simp [mapStepV, PState.mapVal]
  | none =>
    simp only [Option.map_none]
    split
    · rfl
    · split
      · rfl
      · simp [mapStepV, PState.mapVal]

theorem stepOperand_val (i : Nat) (tok : Str) (st : PState V) :
    stepOperand E (fun s => (strtod s).map f) i tok (st.mapVal f) = mapStepV f (stepOperand E strtod i tok st) := by
  obtain ⟨nodes, ops, aw, ap⟩ := st
  unfold stepOperand
  rw [stepLeaf_val]
  split
  · rename_i g _
    simp only [PState.mapVal]
    rw [pushOperator_val]
    cases pushOperator g i nodes ops with
    | error e => simp [mapStacksV, mapStepV, exit_val]
    | ok r =>
      obtain ⟨ns, ds⟩ := r
      simp only [mapStacksV]
      split
      · cases ds with
        | nil => rfl
        | cons d ds =>
          simp only
          rw [popInsert_val]
          cases popInsert g d ns with
          | error e => simp [mapNodesV, mapStepV, exit_val]
          | ok ns' => rfl
      · rfl
  · split
    · rename_i g _
      simp only [PState.mapVal]
      rw [pushOperator_val]
      cases pushOperator g i nodes ops with
      | error e => simp [mapStacksV, mapStepV, exit_val]
      | ok r => rfl
    · rfl

theorem stepOperator_val (i : Nat) (tok : Str) (st : PState V) :
    stepOperator E i tok (st.mapVal f) = mapStepV f (stepOperator E i tok st) := by
  obtain ⟨nodes, ops, aw, ap⟩ := st
  unfold stepOperator
  split
  · rename_i g _
    simp only [PState.mapVal]
    rw [pushOperator_val]
    cases pushOperator g i nodes ops with
    | error e => simp [mapStacksV, mapStepV, exit_val]
    | ok r => rfl
  · split
    · rename_i g _
      simp only [PState.mapVal]
      rw [pushOperator_val]
      cases pushOperator g i nodes ops with
      | error e => simp [mapStacksV, mapStepV, exit_val]
      | ok r =>
        obtain ⟨ns, ds⟩ := r
        cases ds with
        | nil => rfl
        | cons d ds =>
          simp only [mapStacksV]
          rw [popInsert_val]
          cases popInsert g d ns with
          | error e => cases e <;> rfl
          | ok ns' => rfl
    · rfl

theorem stepRest_val (i : Nat) (tok : Str) (st : PState V) :
    stepRest E (fun s => (strtod s).map f) i tok (st.mapVal f) = mapStepV f (stepRest E strtod i tok st) := by
  unfold stepRest
  rw [stepClosing_val, stepDelimiter_val, stepOperator_val, stepOperand_val]
  obtain ⟨nodes, ops, aw, ap⟩ := st
  cases isOpeningParen tok with
  | true => cases aw <;> rfl
  | false =>
    cases ap with
    | true => rfl
    | false =>
      cases isClosingParen tok with
      | true => rfl
      | false =>
        cases isDelimiter tok with
        | true => rfl
        | false => cases aw <;> rfl

theorem stepTok_val (i : Nat) (tok : Str) (st : PState V) :
    stepTok E (fun s => (strtod s).map f) i tok (st.mapVal f) = mapStepV f (stepTok E strtod i tok st) := by
  unfold stepTok
  split
  · rfl
  · rw [stepGlue_val]
    cases stepGlue E i tok st with
    | error e => rfl
    | ok st1 => exact stepRest_val f E strtod i tok st1

theorem runToks_val (toks : List (Nat × Str)) (st : PState V) :
    runToks E (fun s => (strtod s).map f) toks (st.mapVal f)
      = mapStepV f (runToks E strtod toks st) := by
  induction toks generalizing st with
  | nil => rfl
  | cons x toks ih =>
    obtain ⟨i, tok⟩ := x
    simp only [runToks]
    rw [stepTok_val]
    cases stepTok E strtod i tok st with
    | error e => rfl
    | ok st1 => exact ih st1

theorem finish_val (n : Nat) (st : PState V) :
    finish n (st.mapVal f) = (finish n st).mapVal f := by
  obtain ⟨nodes, ops, aw, ap⟩ := st
  unfold finish
  cases ap with
  | true => rfl
  | false =>
    cases aw with
    | false => rfl
    | true =>
      simp only [PState.mapVal, Bool.not_true, Bool.false_eq_true, if_false]
      rw [popWhile_val]
      cases popWhile (fun _ => true) nodes ops with
      | error e => simp [mapStacksV, exit_val]
      | ok r =>
        obtain ⟨ns, ds⟩ := r
        cases ns <;> cases ds <;> rfl

/-- Renumbering the tokens renumbers the result. -/
theorem parseIdx_val (toks : List (Nat × Str)) (n : Nat) :
    parseIdx E (fun s => (strtod s).map f) toks n
      = (parseIdx E strtod toks n).mapVal f := by
  unfold parseIdx
  have := runToks_val f E strtod toks PState.init
  have hi : (PState.init : PState V).mapVal f = PState.init := rfl
  rw [hi] at this
  rw [this]
  cases runToks E strtod toks PState.init with
  | error e => rfl
  | ok st => exact finish_val f n st


theorem parseEasy_val (c : Ctx) (s : Str) :
    parseEasy c (fun s => (strtod s).map f) s
      = (match parseEasy c strtod s with
         | .ok t => .ok (t.map (Tree.mapVal f))
         | .defect => .defect
         | .ub => .ub) := by
  simp only [parseEasy, parseInput, parseTokens]
  rw [parseIdx_val]
  cases parseIdx c.env strtod _ _ <;> rfl

end Verif
