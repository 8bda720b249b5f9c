import Verif.Model.Basic

/-!
# Operators (src/engine/tree/operator.h, operator.c)
-/

namespace Verif

/-- `OpAssociativity`, src/engine/tree/operator.h:12-15 -/
inductive Assoc where
  | right
  | left
deriving DecidableEq, Repr

/-- `OpPlacement`, src/engine/tree/operator.h:17-22 -/
inductive Placement where
  | prefix
  | infix
  | postfix
  | function
deriving DecidableEq, Repr

/-- Arity of an operator; `dyn` is `OP_DYNAMIC_ARITY` (= SIZE_MAX),
src/engine/tree/operator.h:6 -/
inductive Arity where
  | fixed (n : Nat)
  | dyn
deriving DecidableEq, Repr

/-- `Operator`, src/engine/tree/operator.h:24-31.  `precedence` is an unsigned
char (0..255). -/
structure Op where
  name : Str
  id : Nat
  arity : Arity
  prec : Nat
  assoc : Assoc
  placement : Placement
deriving DecidableEq, Repr

/-- `OP_MAX_PRECEDENCE` = UCHAR_MAX, src/engine/tree/operator.h:7 -/
def maxPrecedence : Nat := 255

namespace Op

/-- `op_get_function`, src/engine/tree/operator.c:3-12 -/
def getFunction (name : Str) (arity : Arity) : Op :=
  ⟨name, 0, arity, maxPrecedence, .left, .function⟩

/-- `op_get_prefix`, src/engine/tree/operator.c:14-23 -/
def getPrefix (name : Str) (prec : Nat) : Op :=
  ⟨name, 0, .fixed 1, prec, .left, .prefix⟩

/-- `op_get_infix`, src/engine/tree/operator.c:25-34 -/
def getInfix (name : Str) (prec : Nat) (assoc : Assoc) : Op :=
  ⟨name, 0, .fixed 2, prec, assoc, .infix⟩

/-- `op_get_postfix`, src/engine/tree/operator.c:36-45 -/
def getPostfix (name : Str) (prec : Nat) : Op :=
  ⟨name, 0, .fixed 1, prec, .left, .postfix⟩

/-- `op_get_constant`, src/engine/tree/operator.c:48-51 -/
def getConstant (name : Str) : Op := getFunction name (.fixed 0)

end Op
end Verif
