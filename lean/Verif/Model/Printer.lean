import Verif.Model.Tree
import Verif.Model.Str

/-!
# Printer (src/engine/tree/tree_to_string.c)

The model yields the list of pieces that are appended to the string builder; the
printed text is their concatenation.  `"%s("` and `" %s "` are listed as the
pieces name, parenthesis and blank, name, blank.  How constants (`%g`-like
format, with or without colour) and variables are rendered is a parameter.
A prefix operator's name is used as the format string (line 26): a name with a
`%` is outside of the model (`ub`).  `get_child` beyond the children is `ub`.
-/

namespace Verif
variable {V : Type}

def openP : Str := ['(']
def closeP : Str := [')']
def commaP : Str := [',']
def blankP : Str := [' ']

/-- `get_type(node) == NTYPE_OPERATOR && p(get_op(node))` -/
def Tree.isOpWith (p : Op → Bool) : Tree V → Bool
  | .op o _ _ => p o
  | _ => false

/-- Operand of a prefix operator is wrapped, src/engine/tree/tree_to_string.c:28-29. -/
def prefixWraps (o : Op) (c : Tree V) : Bool := c.isOpWith fun x => decide (x.prec ≤ o.prec)

/-- Operand of a postfix operator is wrapped, tree_to_string.c:51-52. -/
def postfixWraps (o : Op) (c : Tree V) : Bool := c.isOpWith fun x => decide (x.prec < o.prec)

/-- Left operand of an infix operator is wrapped, tree_to_string.c:94-97. -/
def leftWraps (o : Op) (c : Tree V) : Bool :=
  c.isOpWith fun x => decide (x.prec < o.prec) || (x.prec == o.prec && o.assoc == .right)

/-- Right operand of an infix operator is wrapped, tree_to_string.c:111-114. -/
def rightWraps (o : Op) (c : Tree V) : Bool :=
  c.isOpWith fun x => decide (x.prec < o.prec) || (x.prec == o.prec && o.assoc == .left)

/-- `p_open`, text, `p_close` if the flag is set, tree_to_string.c:11-19. -/
def wrapIf (b : Bool) (ts : List Str) : List Str :=
  if b then openP :: ts ++ [closeP] else ts

/-- Name of an infix operator, with blanks if it begins with a letter,
tree_to_string.c:108. -/
def infixPieces (o : Op) : List Str :=
  if headIs isLetter o.name then [blankP, o.name, blankP] else [o.name]

mutual
/-- `to_str` with `prefix_to_str`, `postfix_to_str`, `function_to_str`,
`infix_to_str`, src/engine/tree/tree_to_string.c:21-163. -/
def printTree (fc : V → Str) (fv : Str → Str) : Tree V → Bool → Bool → Res (List Str)
  | .const v _, _, _ => .ok [fc v]
  | .var n _ _, _, _ => .ok [fv n]
  | .op o cs _, l, r =>
    match o.placement with
    | .prefix =>
      match cs with
      | [] => .ub
      | c :: _ =>
        if '%' ∈ o.name then .ub
        else
          Res.bind (if prefixWraps o c then Res.bind (printTree fc fv c false false) fun x => .ok (wrapIf true x)
            else printTree fc fv c true (!l && r)) fun x => .ok (wrapIf l (o.name :: x))
    | .postfix =>
      match cs with
      | [] => .ub
      | c :: _ =>
        Res.bind (if postfixWraps o c then Res.bind (printTree fc fv c false false) fun x => .ok (wrapIf true x)
          else printTree fc fv c (l && !r) true) fun x => .ok (wrapIf r (x ++ [o.name]))
    | .function =>
      if o.arity ≠ .fixed 0 then
        Res.bind (printArgs fc fv cs) fun x => .ok (o.name :: openP :: x ++ [closeP])
      else .ok [o.name]
    | .infix =>
      match cs with
      | a :: b :: _ =>
        Res.bind (if leftWraps o a then Res.bind (printTree fc fv a false false) fun x => .ok (wrapIf true x)
          else printTree fc fv a l true) fun x =>
        Res.bind (if rightWraps o b then Res.bind (printTree fc fv b false false) fun x => .ok (wrapIf true x)
          else printTree fc fv b true r) fun y => .ok (x ++ infixPieces o ++ y)
      | _ => .ub
/-- The loop of `function_to_str`, tree_to_string.c:71-75. -/
def printArgs (fc : V → Str) (fv : Str → Str) : List (Tree V) → Res (List Str)
  | [] => .ok []
  | c :: cs =>
    Res.bind (printTree fc fv c false false) fun x =>
    match cs with
    | [] => .ok x
    | _ :: _ => Res.bind (printArgs fc fv cs) fun y => .ok (x ++ commaP :: y)
end

/-- `tree_to_str` without colour, src/engine/tree/tree_to_string.c:170-176;
`fmt` renders a constant (`CONSTANT_TYPE_FMT`). -/
def treeToStr (fmt : V → Str) (t : Tree V) : Res Str :=
  Res.bind (printTree fmt id t false false) fun ts => .ok ts.flatten

end Verif
