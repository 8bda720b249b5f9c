import Verif.Model.Context

/-!
# The calculator's context (src/client/core/arith_context.c)
-/

namespace Verif

/-- The operators of `get_arith_ctx`, src/client/core/arith_context.c:30-88. -/
def arithOps : List Op :=
  let p (s : String) (n : Nat) := Op.getPrefix s.toList n
  let i (s : String) (n : Nat) (a : Assoc) := Op.getInfix s.toList n a
  let q (s : String) (n : Nat) := Op.getPostfix s.toList n
  let f (s : String) (n : Nat) := Op.getFunction s.toList (.fixed n)
  let d (s : String) := Op.getFunction s.toList .dyn
  let k (s : String) := Op.getConstant s.toList
  [ p "$" 0, p "@" 8, q "'" 7, f "deriv" 2,
    i "+" 2 .left, i "-" 2 .left, i "*" 4 .left, i "/" 3 .left, i "^" 5 .right,
    i "C" 1 .left, i "mod" 1 .left, p "+" 7, p "-" 7, q "!" 6, q "%" 6,
    f "exp" 1, f "root" 2, f "sqrt" 1, f "log" 2, f "ln" 1, f "ld" 1, f "lg" 1,
    f "sin" 1, f "cos" 1, f "tan" 1, f "asin" 1, f "acos" 1, f "atan" 1,
    f "sinh" 1, f "cosh" 1, f "tanh" 1, f "asinh" 1, f "acosh" 1, f "atanh" 1,
    d "max", d "min", f "abs" 1, f "ceil" 1, f "floor" 1, f "round" 1, f "trunc" 1,
    f "frac" 1, f "sgn" 1, d "sum", d "prod", d "avg", f "gcd" 2, f "lcm" 2, f "rand" 2,
    f "fib" 1, f "gamma" 1, d "var",
    k "pi", k "e", k "phi", k "clight", k "csound", k "ans" ]

/-- `NUM_ARITH_OPS`, src/client/core/arith_context.h:9 -/
def numArithOps : Nat := 58

/-- `get_arith_ctx`, src/client/core/arith_context.c:27-95. -/
def arithCtx : Res Ctx := do
  let (c, ok) ← Ctx.create.addOps arithOps
  if !ok then .defect
  else do
    let g ← c.lookup "*".toList .infix
    let (c', _) ← c.setGlue (g.map (·.1))
    pure c'

end Verif
