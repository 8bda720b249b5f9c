import Verif.Model.Vector

/-!
# What vectors and string builders stand for

Written over plain lists, without buffers, sizes and counters.
-/

namespace Verif.SequenceSpec
variable {α : Type}

/-- `Step l c l' o`: the operation `c` on the sequence `l` leaves `l'` and returns `o`.  An
element can be overwritten only if it exists. -/
inductive Step : List α → Vec.Cmd α → List α → Option α → Prop
  | push (l x) : Step l (.push x) (l ++ [x]) none
  | pushElem (l x) : Step l (.pushElem x) (l ++ [x]) none
  | pushMany (l xs) : Step l (.pushMany xs) (l ++ xs) none
  | popEmpty : Step [] .pop [] none
  | pop (l x) : Step (l ++ [x]) .pop l (some x)
  | set (a x b y) : Step (a ++ x :: b) (.set a.length y) (a ++ y :: b) none
  | ensure (l n) : Step l (.ensure n) l none
  | trim (l) : Step l .trim l none
  | clear (l) : Step l .clear [] none

/-- A history of operations. -/
inductive Run : List α → List (Vec.Cmd α) → List α → List (Option α) → Prop
  | nil (l) : Run l [] l []
  | cons {l c l' o cs l'' os} : Step l c l' o → Run l' cs l'' os → Run l (c :: cs) l'' (o :: os)

/-- The text after a history of appends and clears. -/
def text : Str → List Builder.Cmd → Str
  | s, [] => s
  | s, .append t :: cs => text (s ++ t) cs
  | s, .char c :: cs => text (s ++ [c]) cs
  | _, .clear :: cs => text [] cs

/-- Only real characters are appended. -/
def NoNul : Builder.Cmd → Prop
  | .append t => nul ∉ t
  | .char c => c ≠ nul
  | .clear => True

end Verif.SequenceSpec
