import Mathlib.Data.List.Forall2
import Verif.Model.RuleHeap
import Verif.Spec.MemorySession

/-!
# The nodes of rules for simplification, and of the program

Which trees the rules consist of, which addresses they have in memory, and the same inputs to a program
whose trees are values.
-/

namespace Verif.MemorySpec
open OwnershipSpec
variable {V ε : Type}

/-- The memory `g` consists of `base` and of the trees `ts` at the addresses `ps`, which have no node in
common. -/
def Owns (base : Nat → Option (Cell V)) (ts : List (Tree V)) (ps : List Nat) (g : Nat → Option (Cell V)) : Prop :=
  ∃ S, OwnershipSpec.HoldsAll g ts ps S ∧ S.Nodup ∧ (∀ a ∈ S, base a = none) ∧ ∀ a, a ∉ S → g a = base a

/-- The trees of a pattern: the pattern itself and its constraints. -/
def patternTrees (p : Pattern V) : List (Tree V) :=
  p.tree :: (List.range 10).flatMap p.constraints

/-- Their addresses. -/
def patternRoots (q : MemPattern) : List Nat :=
  q.tree :: (List.range 10).flatMap q.constraints

/-- For every id there are as many constraints in memory, and there are ten ids. -/
def FitsPattern (p : Pattern V) (q : MemPattern) : Prop :=
  (∀ k, (q.constraints k).length = (p.constraints k).length) ∧ ∀ k, 10 ≤ k → p.constraints k = []

/-- The trees of rules. -/
def ruleTrees (rs : List (RewriteRule V)) : List (Tree V) :=
  rs.flatMap fun r => patternTrees r.pattern ++ [r.after]

/-- Their addresses. -/
def ruleRoots (fs : List LoadedRule) : List Nat :=
  fs.flatMap fun f => patternRoots f.pattern ++ [f.after]

/-- As many rules, with as many constraints. -/
def FitsRules (rs : List (RewriteRule V)) (fs : List LoadedRule) : Prop :=
  List.Forall₂ (fun r f => FitsPattern r.pattern f.pattern) rs fs

/-- The same for the seven rulesets. -/
def FitsRulesets (rs : Nat → List (RewriteRule V)) (fs : Nat → List LoadedRule) : Prop :=
  (∀ k, FitsRules (rs k) (fs k)) ∧ ∀ k, 7 ≤ k → rs k = []

/-- All trees that belong to simplification. -/
def simpTrees (s : Simp V) : List (Tree V) :=
  if s.initialized then
    s.derivBefore.toList.flatMap patternTrees ++ s.derivAfter.toList ++
      s.malformedDeriv.toList.flatMap patternTrees ++ (List.range 7).flatMap fun k => ruleTrees (s.rulesets k)
  else []

/-- Their addresses. -/
def simpRoots (l : LoadedSimp) : List Nat :=
  if l.initialized then
    l.derivBefore.toList.flatMap patternRoots ++ l.derivAfter.toList ++
      l.malformedDeriv.toList.flatMap patternRoots ++ (List.range 7).flatMap fun k => ruleRoots (l.rulesets k)
  else []

/-- A pattern where there is one. -/
def FitsMaybe : Option (Pattern V) → Option MemPattern → Prop
  | some p, some q => FitsPattern p q
  | none, none => True
  | _, _ => False

/-- The variables of simplification in memory correspond to those whose trees are values. -/
structure FitsSimp (s : Simp V) (l : LoadedSimp) : Prop where
  initialized : l.initialized = s.initialized
  rulesets : s.initialized = true → FitsRulesets s.rulesets l.rulesets
  before : s.initialized = true → FitsMaybe s.derivBefore l.derivBefore
  malformed : s.initialized = true → FitsMaybe s.malformedDeriv l.malformedDeriv
  after : s.initialized = true → l.derivAfter.isSome = s.derivAfter.isSome
  empty : s.initialized = false → s = ⟨false, fun _ => [], none, none, none⟩

/-- A program with its trees as values. -/
structure ValueProgram (V : Type) where
  session : Session V Unit
  simp : Simp V

/-- One input. -/
def programInputOn (K : Machine V ε) (prop : Ctx) (strtod : Str → Option V) (s : ValueProgram V) :
    ProgramInput → Out (ValueProgram V)
  | .session i => do
    let r ← inputOn K s.simp strtod s.session i
    pure { s with session := r }
  | .load file => do
    let r ← Out.of (loadSimplification (parseEasy s.session.ctx strtod) (parseEasy prop strtod) file s.simp)
    pure { s with simp := r.2 }

/-- One input after the other. -/
def programOn (prop : Ctx) (strtod : Str → Option V) :
    ValueProgram V → List (Machine V ε × ProgramInput) → Out (ValueProgram V)
  | s, [] => .ok s
  | s, (K, i) :: rest => do
    let s' ← programInputOn K prop strtod s i
    programOn prop strtod s' rest

/-- The files that are loaded contain seven rulesets, and nothing but rules. -/
def WellFormed (prop : Ctx) (strtod : Str → Option V) : ProgramInput → Prop
  | .load (some text) => ∃ rs, parseRulesets (parseEasy prop strtod) 7 text = .ok (7, rs)
  | _ => True

/-- The program `s` with its trees in the memory of `sm`, which otherwise is `base`. -/
structure ProgramInMemory (base : Nat → Option (Cell V)) (s : ValueProgram V) (sm : MemProgram V) : Prop where
  simp : FitsSimp s.simp sm.simp
  nodes : ∃ g S, Owns base (simpTrees s.simp) (simpRoots sm.simp) g ∧ InMemory g s.session sm.session S

end Verif.MemorySpec
