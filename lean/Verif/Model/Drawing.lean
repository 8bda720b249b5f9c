import Verif.Model.Printer
import Verif.Model.TableLayout

/-!
# Coloured text and drawings of trees (src/engine/tree/tree_to_string.c, tree_to_string.h)

`printf` and `strbuilder_append` with the formats of this file append their parts one after the other.  The bytes of
characters outside of ASCII are given by `utf8`.
-/

namespace Verif.Drawing
open Layout
variable {V : Type}

/-- `OP_COLOR`, src/engine/tree/tree_to_string.h:5 -/
def opColor : Str := esc :: "[47m".toList ++ esc :: "[22;30m".toList

/-- `CONST_COLOR`, tree_to_string.h:6 -/
def constColor : Str := esc :: "[1;33m".toList

/-- `VAR_COLOR`, tree_to_string.h:7 -/
def varColor : Str := esc :: "[1;36m".toList

/-- `COL_RESET`, tree_to_string.h:8 -/
def colReset : Str := esc :: "[0m".toList

/-- What is appended for a constant with colours, src/engine/tree/tree_to_string.c:136. -/
def colConst (fmt : V → Str) (v : V) : Str := constColor ++ fmt v ++ colReset

/-- What is appended for a variable with colours, tree_to_string.c:140. -/
def colVar (n : Str) : Str := varColor ++ n ++ colReset

/-- `tree_to_str` with colours, tree_to_string.c:170-175. -/
def treeToStrColor (fmt : V → Str) (t : Tree V) : Res Str :=
  Res.bind (printTree (colConst fmt) colVar t false false) fun ts => .ok ts.flatten

/-- `EMPTY_TAB`, tree_to_string.c:191 -/
def emptyTab : Str := "    ".toList
/-- `LINE_TAB`, tree_to_string.c:192 -/
def lineTab : Str := utf8 '│' ++ "   ".toList
/-- `BRANCH_TAB`, tree_to_string.c:193 -/
def branchTab : Str := utf8 '├' ++ utf8 '─' ++ utf8 '─' ++ " ".toList
/-- `END_TAB`, tree_to_string.c:194 -/
def endTab : Str := utf8 '└' ++ utf8 '─' ++ utf8 '─' ++ " ".toList

/-- The loop of `print_tree_visually_internal`, tree_to_string.c:200-203, from `i` on.  A shift by 32 or more is
undefined, `unsigned int` having 32 bits. -/
def tabLoop (vert : Nat) : (rounds i : Nat) → Res Str
  | 0, _ => .ok []
  | n + 1, i =>
    if 32 ≤ i then .ub
    else do
      let r ← tabLoop vert n (i + 1)
      pure ((if vert.testBit i then lineTab else emptyTab) ++ r)

/-- What stands in front of a node, tree_to_string.c:198-205. -/
def lead (layer vert : Nat) : Res Str :=
  if layer = 0 then .ok []
  else do
    let r ← tabLoop vert (layer - 1) 0
    if 32 ≤ layer - 1 then .ub
    else pure (r ++ if vert.testBit (layer - 1) then branchTab else endTab)

/-- The third argument for a child, tree_to_string.c:214; `last` tells whether it is the last one. -/
def childLines (last : Bool) (layer vert : Nat) : Res Nat :=
  if last then .ok vert else if 32 ≤ layer then .ub else .ok (vert ||| 1 <<< layer)

mutual
/-- `print_tree_visually_internal`, tree_to_string.c:196-226: the lines that are printed (without the newline each of
them ends with).  `layer` is an `unsigned char`. -/
def drawTree (fmt : V → Str) : Tree V → (layer vert : Nat) → Res (List Str)
  | .const v _, layer, vert => do
    let l ← lead layer vert
    pure [l ++ (constColor ++ fmt v ++ colReset)]
  | .var n _ _, layer, vert => do
    let l ← lead layer vert
    pure [l ++ (varColor ++ n ++ colReset)]
  | .op o cs _, layer, vert => do
    let l ← lead layer vert
    let r ← drawChildren fmt cs layer vert
    pure ((l ++ (opColor ++ o.name ++ colReset)) :: r)
/-- The loop over the children, tree_to_string.c:211-215. -/
def drawChildren (fmt : V → Str) : List (Tree V) → (layer vert : Nat) → Res (List Str)
  | [], _, _ => .ok []
  | c :: cs, layer, vert => do
    let v ← childLines cs.isEmpty layer vert
    let x ← drawTree fmt c ((layer + 1) % 256) v
    let y ← drawChildren fmt cs layer vert
    pure (x ++ y)
end

/-- `print_tree_visually`, tree_to_string.c:231-234 -/
def printTreeVisually (fmt : V → Str) (t : Tree V) : Res (List Str) := drawTree fmt t 0 0

end Verif.Drawing
