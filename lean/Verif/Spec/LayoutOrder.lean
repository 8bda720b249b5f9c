import Verif.Spec.LayoutRows

/-!
# Specification: order of the texts of a table
-/

namespace Verif.LayoutSpec
open Layout

/-- Reading order of positions: by rows, then by columns. -/
def Before (p q : Nat × Nat) : Prop := p.1 < q.1 ∨ p.1 = q.1 ∧ p.2 < q.2

/-- The texts that are added by some calls. -/
def addedTexts : List Call → List (Option Str)
  | [] => []
  | .add s :: cs => s :: addedTexts cs
  | _ :: cs => addedTexts cs

/-- A cell with a text of its own, or that was left blank on purpose. -/
def Filled (c : Cell) : Prop := c.isSet = true ∧ c.parent = none

/-- Calls that make neither spans nor lines for single cells. -/
def Lineless : Call → Prop
  | .setSpan _ _ => False
  | .overrideLeft _ => False
  | .overrideAbove _ => False
  | _ => True

/-- Corners of a box: top left, top right, bottom left, bottom right. -/
def corners : Border → Char × Char × Char × Char
  | .single => ('┌', '┐', '└', '┘')
  | .double => ('╔', '╗', '╚', '╝')
  | .none => (' ', ' ', ' ', ' ')

/-- Left side of a box: a vertical line, from which a line may go out to the right. -/
def leftSide : Border → List Char
  | .single => ['│', '├']
  | .double => ['║', '╠']
  | .none => [' ']

/-- Right side of a box. -/
def rightSide : Border → List Char
  | .single => ['│', '┤']
  | .double => ['║', '╣']
  | .none => [' ']

/-- A line that begins with one of some characters and ends with one of some others. -/
def Framed (a b : List Char) (l : Str) : Prop := ∃ x ∈ a, ∃ y ∈ b, ∃ m, l = bytes x ++ m ++ bytes y

/-- Lines in a closed box. -/
def Boxed (s : Border) (ls : List Str) : Prop := ∃ top mid bottom, ls = top :: mid ++ [bottom] ∧
  Framed [(corners s).1] [(corners s).2.1] top ∧ (∀ l ∈ mid, Framed (leftSide s) (rightSide s) l) ∧
  Framed [(corners s).2.2.1] [(corners s).2.2.2] bottom

end Verif.LayoutSpec
