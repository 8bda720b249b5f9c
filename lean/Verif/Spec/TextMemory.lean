import Verif.Model.TextHeap

/-!
# Which texts belong to a session
-/

namespace Verif.TextSpec
variable {V ε ρ : Type}

/-- The memory `g` is `base`, and in addition the blocks `L`, which are at different addresses. -/
structure Has (base : Nat → Option TextBlock) (L : List (Nat × TextBlock)) (g : Nat → Option TextBlock) : Prop where
  nodup : (L.map (·.1)).Nodup
  new : ∀ b ∈ L, base b.1 = none
  at_ : ∀ b ∈ L, g b.1 = some b.2
  old : ∀ p, p ∉ L.map (·.1) → g p = base p

/-- The operators `defined` of the user: the operators of the context after the 58 of the calculator.  `names` says
for each of them where its name is; there it is, each name at its own place; nothing else is in the memory `g`
but `base`. -/
structure Named (base : Nat → Option TextBlock) (defined : List (Nat × Op)) (names : List (Nat × Nat))
    (g : Nat → Option TextBlock) : Prop where
  each : names.map (·.1) = defined.map (·.1)
  only : Has base ((names.zip defined).map fun x => (x.1.2, .text x.2.2.name)) g

/-- The same inputs to a session whose texts are values. -/
def inputValue (K : Client V ε ρ) (s : Session V ρ) : TextInput → Out (Session V ρ)
  | .evaluation input => do
    let r ← evaluationExec K s input
    pure r.1
  | .definition input => do
    let r ← definitionExec K s input
    pure r.1
  | .clear input => do
    let r ← Out.of (clearExec s input)
    pure r.1

/-- One input after the other. -/
def sessionValue (K : Client V ε ρ) : Session V ρ → List TextInput → Out (Session V ρ)
  | s, [] => .ok s
  | s, i :: is => do
    let s' ← inputValue K s i
    sessionValue K s' is

end Verif.TextSpec
