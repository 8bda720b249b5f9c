import Verif.Lemmas.RuleValues

/-!
# The rules of the program as data

One definition for every rule line of `src/simplification/simplification.c` (as listed in
`Verif.Model.ShippedRules`); the kernel checks that the text is read as these sides and conditions.
Generated from the text of the rules.
-/

namespace Verif.Rules
open P

def r0_0 : RuleData where
  text := "count()       -> 0"
  left := count []
  right := n 0

def r0_1 : RuleData where
  text := "count(x,[xs]) -> 1 + count([xs])  "
  left := count [(v "x"), (v "[xs]")]
  right := add (n 1) (count [(v "[xs]")])

def r0_2 : RuleData where
  text := "+x            -> x"
  left := pos (v "x")
  right := v "x"

def r0_3 : RuleData where
  text := "$x            -> x"
  left := dollar (v "x")
  right := v "x"

def r0_4 : RuleData where
  text := "--x           -> x"
  left := neg (neg (v "x"))
  right := v "x"

def r0_5 : RuleData where
  text := "x%            -> x/100"
  left := pct (v "x")
  right := div (v "x") (n 100)

def r0_6 : RuleData where
  text := "(x/y)/z       -> x/(y*z)"
  left := div (div (v "x") (v "y")) (v "z")
  right := div (v "x") (mul (v "y") (v "z"))

def r0_7 : RuleData where
  text := "x/y           -> x*y^(-1)"
  left := div (v "x") (v "y")
  right := mul (v "x") (pow (v "y") (neg (n 1)))

def r0_8 : RuleData where
  text := "log(x, e)     -> ln(x)"
  left := log (v "x") e
  right := ln (v "x")

def r0_9 : RuleData where
  text := "tan(x)        -> sin(x)/cos(x)"
  left := tan (v "x")
  right := div (sin (v "x")) (cos (v "x"))

def r0_10 : RuleData where
  text := "sqrt(x)       -> x^0.5"
  left := sqrt (v "x")
  right := pow (v "x") (n (1 / 2))

def r0_11 : RuleData where
  text := "exp(x)        -> e^x"
  left := exp (v "x")
  right := pow e (v "x")

def r0_12 : RuleData where
  text := "root(x, y)    -> x^(1/y)"
  left := root (v "x") (v "y")
  right := pow (v "x") (div (n 1) (v "y"))

def r0_13 : RuleData where
  text := "avg([xs])     -> sum([xs])/count([xs])   "
  left := avg [(v "[xs]")]
  right := div (sum [(v "[xs]")]) (count [(v "[xs]")])

def r1_0 : RuleData where
  text := "x*0                 -> 0"
  left := mul (v "x") (n 0)
  right := n 0

def r1_1 : RuleData where
  text := "0*x                 -> 0"
  left := mul (n 0) (v "x")
  right := n 0

def r1_2 : RuleData where
  text := "x+0                 -> x"
  left := add (v "x") (n 0)
  right := v "x"

def r1_3 : RuleData where
  text := "0+x                 -> x"
  left := add (n 0) (v "x")
  right := v "x"

def r1_4 : RuleData where
  text := "1*x                 -> x"
  left := mul (n 1) (v "x")
  right := v "x"

def r1_5 : RuleData where
  text := "x*1                 -> x"
  left := mul (v "x") (n 1)
  right := v "x"

def r1_6 : RuleData where
  text := "deriv(x, x)         -> 1"
  left := drv (v "x") "x"
  right := n 1

def r1_7 : RuleData where
  text := "deriv(x, z)         -> 0               WHERE type(x) != OP"
  left := drv (v "x") "z"
  right := n 0
  conds := [.notOp "x"]

def r1_8 : RuleData where
  text := "deriv(cx*y, y)      -> cx              WHERE type(cx) == CONST"
  left := drv (mul (v "cx") (v "y")) "y"
  right := v "cx"
  conds := [.isConst "cx"]

def r1_9 : RuleData where
  text := "deriv(cx * z^cy, z) -> cx*cy*z^(cy-1)  WHERE type(cx) == CONST ; type(cy) == CONST"
  left := drv (mul (v "cx") (pow (v "z") (v "cy"))) "z"
  right := mul (mul (v "cx") (v "cy")) (pow (v "z") (minus (v "cy") (n 1)))
  conds := [.isConst "cx", .isConst "cy"]

def r1_10 : RuleData where
  text := "deriv(-x, z)        -> -deriv(x, z)"
  left := drv (neg (v "x")) "z"
  right := neg (drv (v "x") "z")

def r1_11 : RuleData where
  text := "deriv(x + y, z)     -> deriv(x, z) + deriv(y, z)"
  left := drv (add (v "x") (v "y")) "z"
  right := add (drv (v "x") "z") (drv (v "y") "z")

def r1_12 : RuleData where
  text := "deriv(x - y, z)     -> deriv(x, z) - deriv(y, z)"
  left := drv (minus (v "x") (v "y")) "z"
  right := minus (drv (v "x") "z") (drv (v "y") "z")

def r1_13 : RuleData where
  text := "deriv(x*y, z)       -> deriv(x, z)*y + x*deriv(y, z)"
  left := drv (mul (v "x") (v "y")) "z"
  right := add (mul (drv (v "x") "z") (v "y")) (mul (v "x") (drv (v "y") "z"))

def r1_14 : RuleData where
  text := "deriv(sin(x), z)    -> cos(x) * deriv(x, z)"
  left := drv (sin (v "x")) "z"
  right := mul (cos (v "x")) (drv (v "x") "z")

def r1_15 : RuleData where
  text := "deriv(cos(x), z)    -> -sin(x) * deriv(x, z)"
  left := drv (cos (v "x")) "z"
  right := mul (neg (sin (v "x"))) (drv (v "x") "z")

def r1_16 : RuleData where
  text := "deriv(tan(x), z)    -> deriv(x, z) * cos(x)^-2"
  left := drv (tan (v "x")) "z"
  right := mul (drv (v "x") "z") (pow (cos (v "x")) (neg (n 2)))

def r1_17 : RuleData where
  text := "deriv(asin(x), z)   -> deriv(x, z) / sqrt(1 - x^2)"
  left := drv (asin (v "x")) "z"
  right := div (drv (v "x") "z") (sqrt (minus (n 1) (pow (v "x") (n 2))))

def r1_18 : RuleData where
  text := "deriv(acos(x), z)   -> -deriv(x, z) / sqrt(1 - x^2)"
  left := drv (acos (v "x")) "z"
  right := div (neg (drv (v "x") "z")) (sqrt (minus (n 1) (pow (v "x") (n 2))))

def r1_19 : RuleData where
  text := "deriv(atan(x), z)   -> deriv(x, z) / (x^2 + 1)"
  left := drv (atan (v "x")) "z"
  right := div (drv (v "x") "z") (add (pow (v "x") (n 2)) (n 1))

def r1_20 : RuleData where
  text := "deriv(e^y, z)       -> deriv(y, z)*e^y"
  left := drv (pow e (v "y")) "z"
  right := mul (drv (v "y") "z") (pow e (v "y"))

def r1_21 : RuleData where
  text := "deriv(x^y, z)       -> (y * deriv(x, z) * x^-1 + deriv(y, z) * ln(x)) * x^y"
  left := drv (pow (v "x") (v "y")) "z"
  right := mul (add (mul (mul (v "y") (drv (v "x") "z")) (pow (v "x") (neg (n 1)))) (mul (drv (v "y") "z") (ln (v
    "x")))) (pow (v "x") (v "y"))

def r1_22 : RuleData where
  text := "deriv(ln(x), z)     -> deriv(x, z)*x^(-1)"
  left := drv (ln (v "x")) "z"
  right := mul (drv (v "x") "z") (pow (v "x") (neg (n 1)))

def r2_0 : RuleData where
  text := "x-y    -> x+(-y)"
  left := minus (v "x") (v "y")
  right := add (v "x") (neg (v "y"))

def r2_1 : RuleData where
  text := "-(x+y) -> -x+(-y)"
  left := neg (add (v "x") (v "y"))
  right := add (neg (v "x")) (neg (v "y"))

def r2_2 : RuleData where
  text := "-(x*y) -> (-x)*y"
  left := neg (mul (v "x") (v "y"))
  right := mul (neg (v "x")) (v "y")

def r2_3 : RuleData where
  text := "x*y                          -> prod(x,y)"
  left := mul (v "x") (v "y")
  right := prod [(v "x"), (v "y")]

def r2_4 : RuleData where
  text := "prod([xs], prod([ys]), [zs]) -> prod([xs], [ys], [zs])"
  left := prod [(v "[xs]"), (prod [(v "[ys]")]), (v "[zs]")]
  right := prod [(v "[xs]"), (v "[ys]"), (v "[zs]")]

def r2_5 : RuleData where
  text := "prod([xs])*prod([ys])        -> prod([xs], [ys])"
  left := mul (prod [(v "[xs]")]) (prod [(v "[ys]")])
  right := prod [(v "[xs]"), (v "[ys]")]

def r2_6 : RuleData where
  text := "x*prod([xs])                 -> prod(x, [xs])"
  left := mul (v "x") (prod [(v "[xs]")])
  right := prod [(v "x"), (v "[xs]")]

def r2_7 : RuleData where
  text := "prod([xs])*x                 -> prod([xs], x)"
  left := mul (prod [(v "[xs]")]) (v "x")
  right := prod [(v "[xs]"), (v "x")]

def r2_8 : RuleData where
  text := "x+y                        -> sum(x,y)"
  left := add (v "x") (v "y")
  right := sum [(v "x"), (v "y")]

def r2_9 : RuleData where
  text := "sum([xs], sum([ys]), [zs]) -> sum([xs], [ys], [zs])"
  left := sum [(v "[xs]"), (sum [(v "[ys]")]), (v "[zs]")]
  right := sum [(v "[xs]"), (v "[ys]"), (v "[zs]")]

def r2_10 : RuleData where
  text := "sum([xs])+sum([ys])        -> sum([xs], [ys])"
  left := add (sum [(v "[xs]")]) (sum [(v "[ys]")])
  right := sum [(v "[xs]"), (v "[ys]")]

def r2_11 : RuleData where
  text := "x+sum([xs])                -> sum(x, [xs])"
  left := add (v "x") (sum [(v "[xs]")])
  right := sum [(v "x"), (v "[xs]")]

def r2_12 : RuleData where
  text := "sum([xs])+x                -> sum([xs], x)"
  left := add (sum [(v "[xs]")]) (v "x")
  right := sum [(v "[xs]"), (v "x")]

def r3_0 : RuleData where
  text := "prod()                       -> 1"
  left := prod []
  right := n 1

def r3_1 : RuleData where
  text := "prod(x)                      -> x"
  left := prod [(v "x")]
  right := v "x"

def r3_2 : RuleData where
  text := "sum()                        -> 0"
  left := sum []
  right := n 0

def r3_3 : RuleData where
  text := "sum(x)                       -> x"
  left := sum [(v "x")]
  right := v "x"

def r3_4 : RuleData where
  text := "prod([xs], 0, [ys])          -> 0"
  left := prod [(v "[xs]"), (n 0), (v "[ys]")]
  right := n 0

def r3_5 : RuleData where
  text := "prod([xs], 1, [ys])          -> prod([xs], [ys])"
  left := prod [(v "[xs]"), (n 1), (v "[ys]")]
  right := prod [(v "[xs]"), (v "[ys]")]

def r3_6 : RuleData where
  text := "sum([xs], 0, [ys])           -> sum([xs], [ys])"
  left := sum [(v "[xs]"), (n 0), (v "[ys]")]
  right := sum [(v "[xs]"), (v "[ys]")]

def r3_7 : RuleData where
  text := "sum([xs], sum([ys]), [zs])   -> sum([xs], [ys], [zs])"
  left := sum [(v "[xs]"), (sum [(v "[ys]")]), (v "[zs]")]
  right := sum [(v "[xs]"), (v "[ys]"), (v "[zs]")]

def r3_8 : RuleData where
  text := "prod([xs], prod([ys]), [zs]) -> prod([xs], [ys], [zs])"
  left := prod [(v "[xs]"), (prod [(v "[ys]")]), (v "[zs]")]
  right := prod [(v "[xs]"), (v "[ys]"), (v "[zs]")]

def r3_9 : RuleData where
  text := "--x -> x"
  left := neg (neg (v "x"))
  right := v "x"

def r3_10 : RuleData where
  text := "x/0 -> 0/0 WHERE x != 0"
  left := div (v "x") (n 0)
  right := div (n 0) (n 0)
  conds := [.other (.app 61 [(v "x"), (n 0)])]

def r3_11 : RuleData where
  text := "sum([xs], x^y, [ys], prod([yys]), [zs]) -> sum([xs], prod([yys]), [ys], x^y, [zs])"
  left := sum [(v "[xs]"), (pow (v "x") (v "y")), (v "[ys]"), (prod [(v "[yys]")]), (v "[zs]")]
  right := sum [(v "[xs]"), (prod [(v "[yys]")]), (v "[ys]"), (pow (v "x") (v "y")), (v "[zs]")]

def r3_12 : RuleData where
  text := "prod([xs], x^y, [ys], sum([yys]), [zs]) -> prod([xs], sum([yys]), [ys], x^y, [zs])"
  left := prod [(v "[xs]"), (pow (v "x") (v "y")), (v "[ys]"), (sum [(v "[yys]")]), (v "[zs]")]
  right := prod [(v "[xs]"), (sum [(v "[yys]")]), (v "[ys]"), (pow (v "x") (v "y")), (v "[zs]")]

def r3_13 : RuleData where
  text := "prod(cx, [xs], sum(cy, [xxs]), [zs])    -> prod([xs], sum(cx*cy, prod(cx, sum([xxs]))), [zs]) WHERE type(cx)==CONST ; type(cy)==CONST"
  left := prod [(v "cx"), (v "[xs]"), (sum [(v "cy"), (v "[xxs]")]), (v "[zs]")]
  right := prod [(v "[xs]"), (sum [(mul (v "cx") (v "cy")), (prod [(v "cx"), (sum [(v "[xxs]")])])]), (v "[zs]")]
  conds := [.isConst "cx", .isConst "cy"]

def r3_14 : RuleData where
  text := "sum([xs], x, [ys], y, [zs]) -> sum([xs], [ys], [zs])  WHERE equal(y,-x) || equal(x,-y)"
  left := sum [(v "[xs]"), (v "x"), (v "[ys]"), (v "y"), (v "[zs]")]
  right := sum [(v "[xs]"), (v "[ys]"), (v "[zs]")]
  conds := [.opposite "x" "y"]

def r3_15 : RuleData where
  text := "-sum(x,[xs])                 -> sum(-x,-sum([xs]))"
  left := neg (sum [(v "x"), (v "[xs]")])
  right := sum [(neg (v "x")), (neg (sum [(v "[xs]")]))]

def r3_16 : RuleData where
  text := "-prod(x, [xs])               -> prod(-x, [xs])"
  left := neg (prod [(v "x"), (v "[xs]")])
  right := prod [(neg (v "x")), (v "[xs]")]

def r3_17 : RuleData where
  text := "prod(y, [xs], -x, [zs])      -> prod(-y, [xs], x, [zs])"
  left := prod [(v "y"), (v "[xs]"), (neg (v "x")), (v "[zs]")]
  right := prod [(neg (v "y")), (v "[xs]"), (v "x"), (v "[zs]")]

def r3_18 : RuleData where
  text := "sum([xs], prod(cx, y), [ys], y, [zs]) -> sum([xs], prod(cx + 1, y), [ys], [zs])  WHERE type(cx)==CONST"
  left := sum [(v "[xs]"), (prod [(v "cx"), (v "y")]), (v "[ys]"), (v "y"), (v "[zs]")]
  right := sum [(v "[xs]"), (prod [(add (v "cx") (n 1)), (v "y")]), (v "[ys]"), (v "[zs]")]
  conds := [.isConst "cx"]

def r3_19 : RuleData where
  text := "sum([xs], prod(cx, y), [ys], -y, [zs]) -> sum([xs], prod(cx - 1, y), [ys], [zs])  WHERE type(cx)==CONST"
  left := sum [(v "[xs]"), (prod [(v "cx"), (v "y")]), (v "[ys]"), (neg (v "y")), (v "[zs]")]
  right := sum [(v "[xs]"), (prod [(minus (v "cx") (n 1)), (v "y")]), (v "[ys]"), (v "[zs]")]
  conds := [.isConst "cx"]

def r3_20 : RuleData where
  text := "sum([xs], x, [ys], x, [zs]) -> sum([xs], prod(2,x), [ys], [zs])"
  left := sum [(v "[xs]"), (v "x"), (v "[ys]"), (v "x"), (v "[zs]")]
  right := sum [(v "[xs]"), (prod [(n 2), (v "x")]), (v "[ys]"), (v "[zs]")]

def r3_21 : RuleData where
  text := "sum([xs], prod([xxs], x, [yys]), [ys], prod([xxxs], x, [yyys]), [zs]) -> sum([xs], prod(sum(prod([xxs], [yys]), prod([xxxs], [yyys])), x), [ys], [zs])"
  left := sum [(v "[xs]"), (prod [(v "[xxs]"), (v "x"), (v "[yys]")]), (v "[ys]"), (prod [(v "[xxxs]"), (v "x"), (v
    "[yyys]")]), (v "[zs]")]
  right := sum [(v "[xs]"), (prod [(sum [(prod [(v "[xxs]"), (v "[yys]")]), (prod [(v "[xxxs]"), (v "[yyys]")])]), (v
    "x")]), (v "[ys]"), (v "[zs]")]

def r3_22 : RuleData where
  text := "sum(x, y)^2 -> sum(prod(2,x,y), x^2, y^2)     WHERE type(x) == CONST"
  left := pow (sum [(v "x"), (v "y")]) (n 2)
  right := sum [(prod [(n 2), (v "x"), (v "y")]), (pow (v "x") (n 2)), (pow (v "y") (n 2))]
  conds := [.isConst "x"]

def r3_23 : RuleData where
  text := "sum(prod(2, x, y), x^2, y^2) -> sum(x, y)^2   WHERE type(x) != CONST"
  left := sum [(prod [(n 2), (v "x"), (v "y")]), (pow (v "x") (n 2)), (pow (v "y") (n 2))]
  right := pow (sum [(v "x"), (v "y")]) (n 2)
  conds := [.other (.app 61 [(.app 58 [(v "x")]), (.app 62 [])])]

def r3_24 : RuleData where
  text := "sum(prod(2, y, x), x^2, y^2) -> sum(x, y)^2   WHERE type(x) != CONST"
  left := sum [(prod [(n 2), (v "y"), (v "x")]), (pow (v "x") (n 2)), (pow (v "y") (n 2))]
  right := pow (sum [(v "x"), (v "y")]) (n 2)
  conds := [.other (.app 61 [(.app 58 [(v "x")]), (.app 62 [])])]

def r3_25 : RuleData where
  text := "sum(x^2, prod(2, x, y), y^2) -> sum(x, y)^2   WHERE type(x) != CONST"
  left := sum [(pow (v "x") (n 2)), (prod [(n 2), (v "x"), (v "y")]), (pow (v "y") (n 2))]
  right := pow (sum [(v "x"), (v "y")]) (n 2)
  conds := [.other (.app 61 [(.app 58 [(v "x")]), (.app 62 [])])]

def r3_26 : RuleData where
  text := "sum(x^2, y^2, prod(2, y, x)) -> sum(x, y)^2   WHERE type(x) != CONST"
  left := sum [(pow (v "x") (n 2)), (pow (v "y") (n 2)), (prod [(n 2), (v "y"), (v "x")])]
  right := pow (sum [(v "x"), (v "y")]) (n 2)
  conds := [.other (.app 61 [(.app 58 [(v "x")]), (.app 62 [])])]

def r3_27 : RuleData where
  text := "x^0                              -> 1"
  left := pow (v "x") (n 0)
  right := n 1

def r3_28 : RuleData where
  text := "x^1                              -> x"
  left := pow (v "x") (n 1)
  right := v "x"

def r3_29 : RuleData where
  text := "(x^y)^z                          -> x^prod(y, z)"
  left := pow (pow (v "x") (v "y")) (v "z")
  right := pow (v "x") (prod [(v "y"), (v "z")])

def r3_30 : RuleData where
  text := "prod([xs], x^cy, [ys], x^cz, [zs]) -> prod([xs], x^sum(cy,cz), [ys], [zs]) WHERE type(cy)==CONST ; type(cz)==CONST"
  left := prod [(v "[xs]"), (pow (v "x") (v "cy")), (v "[ys]"), (pow (v "x") (v "cz")), (v "[zs]")]
  right := prod [(v "[xs]"), (pow (v "x") (sum [(v "cy"), (v "cz")])), (v "[ys]"), (v "[zs]")]
  conds := [.isConst "cy", .isConst "cz"]

def r3_31 : RuleData where
  text := "prod([xs], cy^x, [ys], cz^x, [zs]) -> prod([xs], (cy*cz)^x, [ys], [zs]) WHERE type(cy)==CONST ; type(cz)==CONST"
  left := prod [(v "[xs]"), (pow (v "cy") (v "x")), (v "[ys]"), (pow (v "cz") (v "x")), (v "[zs]")]
  right := prod [(v "[xs]"), (pow (mul (v "cy") (v "cz")) (v "x")), (v "[ys]"), (v "[zs]")]
  conds := [.isConst "cy", .isConst "cz"]

def r3_32 : RuleData where
  text := "prod([xs], x, [ys], x, [zs])     -> prod([xs], x^2, [ys], [zs])"
  left := prod [(v "[xs]"), (v "x"), (v "[ys]"), (v "x"), (v "[zs]")]
  right := prod [(v "[xs]"), (pow (v "x") (n 2)), (v "[ys]"), (v "[zs]")]

def r3_33 : RuleData where
  text := "prod([xs], x, [ys], x^y, [zs])   -> prod([xs], x^sum(y,1), [ys], [zs])"
  left := prod [(v "[xs]"), (v "x"), (v "[ys]"), (pow (v "x") (v "y")), (v "[zs]")]
  right := prod [(v "[xs]"), (pow (v "x") (sum [(v "y"), (n 1)])), (v "[ys]"), (v "[zs]")]

def r3_34 : RuleData where
  text := "prod(x, y)^z                     -> prod(x^z, y^z)"
  left := pow (prod [(v "x"), (v "y")]) (v "z")
  right := prod [(pow (v "x") (v "z")), (pow (v "y") (v "z"))]

def r3_35 : RuleData where
  text := "prod([xs], x^y, [ys], x, [zs])   -> prod([xs], x^sum(y,1), [ys], [zs])"
  left := prod [(v "[xs]"), (pow (v "x") (v "y")), (v "[ys]"), (v "x"), (v "[zs]")]
  right := prod [(v "[xs]"), (pow (v "x") (sum [(v "y"), (n 1)])), (v "[ys]"), (v "[zs]")]

def r3_36 : RuleData where
  text := "prod([xs], x^z, [ys], x^y, [zs]) -> prod([xs], x^sum(y,z), [ys], [zs])"
  left := prod [(v "[xs]"), (pow (v "x") (v "z")), (v "[ys]"), (pow (v "x") (v "y")), (v "[zs]")]
  right := prod [(v "[xs]"), (pow (v "x") (sum [(v "y"), (v "z")])), (v "[ys]"), (v "[zs]")]

def r3_37 : RuleData where
  text := "prod([xs], sum([xxs], x^y, [yys]), [ys], x^z, [zs]) -> sum(prod([xs], sum([xxs], [yys]), [ys], x^z, [zs]), x^sum(y,z))"
  left := prod [(v "[xs]"), (sum [(v "[xxs]"), (pow (v "x") (v "y")), (v "[yys]")]), (v "[ys]"), (pow (v "x") (v
    "z")), (v "[zs]")]
  right := sum [(prod [(v "[xs]"), (sum [(v "[xxs]"), (v "[yys]")]), (v "[ys]"), (pow (v "x") (v "z")), (v "[zs]")]),
    (pow (v "x") (sum [(v "y"), (v "z")]))]

def r3_38 : RuleData where
  text := "sum([xs], cos(x)^2, [ys], sin(x)^2, [zs])   -> sum(1, [xs], [ys], [zs])"
  left := sum [(v "[xs]"), (pow (cos (v "x")) (n 2)), (v "[ys]"), (pow (sin (v "x")) (n 2)), (v "[zs]")]
  right := sum [(n 1), (v "[xs]"), (v "[ys]"), (v "[zs]")]

def r3_39 : RuleData where
  text := "sum([xs], sin(x)^2, [ys], cos(x)^2, [zs])   -> sum(1, [xs], [ys], [zs])"
  left := sum [(v "[xs]"), (pow (sin (v "x")) (n 2)), (v "[ys]"), (pow (cos (v "x")) (n 2)), (v "[zs]")]
  right := sum [(n 1), (v "[xs]"), (v "[ys]"), (v "[zs]")]

def r3_40 : RuleData where
  text := "prod([xs], sin(x), [ys], cos(x)^-1, [zs])   -> prod([xs], tan(x), [ys], [zs])"
  left := prod [(v "[xs]"), (sin (v "x")), (v "[ys]"), (pow (cos (v "x")) (neg (n 1))), (v "[zs]")]
  right := prod [(v "[xs]"), (tan (v "x")), (v "[ys]"), (v "[zs]")]

def r3_41 : RuleData where
  text := "prod([xs], sin(x)^y, [ys], cos(x)^-y, [zs]) -> prod([xs], tan(x)^y, [ys], [zs])"
  left := prod [(v "[xs]"), (pow (sin (v "x")) (v "y")), (v "[ys]"), (pow (cos (v "x")) (neg (v "y"))), (v "[zs]")]
  right := prod [(v "[xs]"), (pow (tan (v "x")) (v "y")), (v "[ys]"), (v "[zs]")]

def r3_42 : RuleData where
  text := "min([xs], x, [ys], x, [zs]) -> min([xs], x, [ys], [zs])"
  left := min [(v "[xs]"), (v "x"), (v "[ys]"), (v "x"), (v "[zs]")]
  right := min [(v "[xs]"), (v "x"), (v "[ys]"), (v "[zs]")]

def r3_43 : RuleData where
  text := "max([xs], x, [ys], x, [zs]) -> max([xs], x, [ys], [zs])"
  left := max [(v "[xs]"), (v "x"), (v "[ys]"), (v "x"), (v "[zs]")]
  right := max [(v "[xs]"), (v "x"), (v "[ys]"), (v "[zs]")]

def r3_44 : RuleData where
  text := "(-x)^y -> x^y WHERE (y mod 2) == 0"
  left := pow (neg (v "x")) (v "y")
  right := pow (v "x") (v "y")
  conds := [.even "y"]

def r3_45 : RuleData where
  text := "sum([xs],cX,[ys],cY,[zs])  -> sum(cX+cY,[xs],[ys],[zs])   WHERE type(cX) == CONST ; type(cY) == CONST"
  left := sum [(v "[xs]"), (v "cX"), (v "[ys]"), (v "cY"), (v "[zs]")]
  right := sum [(add (v "cX") (v "cY")), (v "[xs]"), (v "[ys]"), (v "[zs]")]
  conds := [.isConst "cX", .isConst "cY"]

def r3_46 : RuleData where
  text := "sum(x+y,[xs],cX,[ys])      -> sum(x+y+cX,[xs],[ys])       WHERE type(cX) == CONST"
  left := sum [(add (v "x") (v "y")), (v "[xs]"), (v "cX"), (v "[ys]")]
  right := sum [(add (add (v "x") (v "y")) (v "cX")), (v "[xs]"), (v "[ys]")]
  conds := [.isConst "cX"]

def r3_47 : RuleData where
  text := "sum(x,[xs],cX,[ys])        -> sum(cX,x,[xs],[ys])         WHERE type(cX) == CONST"
  left := sum [(v "x"), (v "[xs]"), (v "cX"), (v "[ys]")]
  right := sum [(v "cX"), (v "x"), (v "[xs]"), (v "[ys]")]
  conds := [.isConst "cX"]

def r3_48 : RuleData where
  text := "prod([xs],cX,[ys],cY,[zs]) -> prod(cX*cY,[xs],[ys],[zs])  WHERE type(cX) == CONST ; type(cY) == CONST"
  left := prod [(v "[xs]"), (v "cX"), (v "[ys]"), (v "cY"), (v "[zs]")]
  right := prod [(mul (v "cX") (v "cY")), (v "[xs]"), (v "[ys]"), (v "[zs]")]
  conds := [.isConst "cX", .isConst "cY"]

def r3_49 : RuleData where
  text := "prod(x*y,[xs],cX,[ys])     -> prod(x*y*cX,[xs],[ys])      WHERE type(cX) == CONST"
  left := prod [(mul (v "x") (v "y")), (v "[xs]"), (v "cX"), (v "[ys]")]
  right := prod [(mul (mul (v "x") (v "y")) (v "cX")), (v "[xs]"), (v "[ys]")]
  conds := [.isConst "cX"]

def r3_50 : RuleData where
  text := "prod(x,[xs],cX,[ys])       -> prod(cX,x,[xs],[ys])        WHERE type(cX) == CONST"
  left := prod [(v "x"), (v "[xs]"), (v "cX"), (v "[ys]")]
  right := prod [(v "cX"), (v "x"), (v "[xs]"), (v "[ys]")]
  conds := [.isConst "cX"]

def r4_0 : RuleData where
  text := "sum(x)                                  -> x"
  left := sum [(v "x")]
  right := v "x"

def r4_1 : RuleData where
  text := "prod(x)                                 -> x"
  left := prod [(v "x")]
  right := v "x"

def r4_2 : RuleData where
  text := "prod(-x, [xs])                          -> -prod(x, [xs])"
  left := prod [(neg (v "x")), (v "[xs]")]
  right := neg (prod [(v "x"), (v "[xs]")])

def r4_3 : RuleData where
  text := "sum([xs],-prod([xxs]),[ys])             -> sum([xs],[ys])-prod([xxs])"
  left := sum [(v "[xs]"), (neg (prod [(v "[xxs]")])), (v "[ys]")]
  right := minus (sum [(v "[xs]"), (v "[ys]")]) (prod [(v "[xxs]")])

def r4_4 : RuleData where
  text := "-sum([xs], x)                           -> -sum([xs])-x"
  left := neg (sum [(v "[xs]"), (v "x")])
  right := minus (neg (sum [(v "[xs]")])) (v "x")

def r4_5 : RuleData where
  text := "sum([xs], x)                            -> sum([xs])+x"
  left := sum [(v "[xs]"), (v "x")]
  right := add (sum [(v "[xs]")]) (v "x")

def r4_6 : RuleData where
  text := "prod([xs], x)                           -> prod([xs])*x"
  left := prod [(v "[xs]"), (v "x")]
  right := mul (prod [(v "[xs]")]) (v "x")

def r4_7 : RuleData where
  text := "sum([xs], prod([xxs], -x, [yys]), [ys]) -> sum([xs], [ys]) - prod([xxs],x,[yys])"
  left := sum [(v "[xs]"), (prod [(v "[xxs]"), (neg (v "x")), (v "[yys]")]), (v "[ys]")]
  right := minus (sum [(v "[xs]"), (v "[ys]")]) (prod [(v "[xxs]"), (v "x"), (v "[yys]")])

def r4_8 : RuleData where
  text := "prod()                                  -> 1"
  left := prod []
  right := n 1

def r4_9 : RuleData where
  text := "sum()                                   -> 0"
  left := sum []
  right := n 0

def r5_0 : RuleData where
  text := "0*x           -> 0"
  left := mul (n 0) (v "x")
  right := n 0

def r5_1 : RuleData where
  text := "1*x           -> x"
  left := mul (n 1) (v "x")
  right := v "x"

def r5_2 : RuleData where
  text := "0+x           -> x"
  left := add (n 0) (v "x")
  right := v "x"

def r5_3 : RuleData where
  text := "x^(-y)        -> 1/(x^y)"
  left := pow (v "x") (neg (v "y"))
  right := div (n 1) (pow (v "x") (v "y"))

def r5_4 : RuleData where
  text := "x^0.5         -> sqrt(x)"
  left := pow (v "x") (n (1 / 2))
  right := sqrt (v "x")

def r5_5 : RuleData where
  text := "x^1           -> x"
  left := pow (v "x") (n 1)
  right := v "x"

def r5_6 : RuleData where
  text := "-(x+y)        -> x-y"
  left := neg (add (v "x") (v "y"))
  right := minus (v "x") (v "y")

def r5_7 : RuleData where
  text := "(-1)*x        -> -x"
  left := mul (neg (n 1)) (v "x")
  right := neg (v "x")

def r5_8 : RuleData where
  text := "x*(y/z)       -> (y*x)/z       WHERE type(y) == CONST"
  left := mul (v "x") (div (v "y") (v "z"))
  right := div (mul (v "y") (v "x")) (v "z")
  conds := [.isConst "y"]

def r5_9 : RuleData where
  text := "x+((-y)/z)    -> x-(y/z)"
  left := add (v "x") (div (neg (v "y")) (v "z"))
  right := minus (v "x") (div (v "y") (v "z"))

def r5_10 : RuleData where
  text := "x+(-y*z)      -> x-y*z"
  left := add (v "x") (mul (neg (v "y")) (v "z"))
  right := minus (v "x") (mul (v "y") (v "z"))

def r5_11 : RuleData where
  text := "z*(x+y)       -> z*x + z*y     WHERE type(z) == CONST"
  left := mul (v "z") (add (v "x") (v "y"))
  right := add (mul (v "z") (v "x")) (mul (v "z") (v "y"))
  conds := [.isConst "z"]

def r5_12 : RuleData where
  text := "--x           -> x"
  left := neg (neg (v "x"))
  right := v "x"

def r5_13 : RuleData where
  text := "(-1)*x        -> -x"
  left := mul (neg (n 1)) (v "x")
  right := neg (v "x")

def r5_14 : RuleData where
  text := "x+(-y)        -> x-y"
  left := add (v "x") (neg (v "y"))
  right := minus (v "x") (v "y")

def r5_15 : RuleData where
  text := "(-x)+y        -> y-x"
  left := add (neg (v "x")) (v "y")
  right := minus (v "y") (v "x")

def r5_16 : RuleData where
  text := "-(x*y)        -> (-x)*y"
  left := neg (mul (v "x") (v "y"))
  right := mul (neg (v "x")) (v "y")

def r5_17 : RuleData where
  text := "root(x, 2)    -> sqrt(x)"
  left := root (v "x") (n 2)
  right := sqrt (v "x")

def r5_18 : RuleData where
  text := "x^(1/y)       -> root(x, y)"
  left := pow (v "x") (div (n 1) (v "y"))
  right := root (v "x") (v "y")

def r5_19 : RuleData where
  text := "x+(y+z)       -> x+y+z"
  left := add (v "x") (add (v "y") (v "z"))
  right := add (add (v "x") (v "y")) (v "z")

def r5_20 : RuleData where
  text := "x*(y*z)       -> x*y*z"
  left := mul (v "x") (mul (v "y") (v "z"))
  right := mul (mul (v "x") (v "y")) (v "z")

def r5_21 : RuleData where
  text := "sin(x)/cos(x) -> tan(x)"
  left := div (sin (v "x")) (cos (v "x"))
  right := tan (v "x")

def r5_22 : RuleData where
  text := "x/0           -> 1/0    WHERE !equal(x,1)"
  left := div (v "x") (n 0)
  right := div (n 1) (n 0)
  conds := [.other (.app 72 [(.app 59 [(v "x"), (n 1)])])]

def r6_0 : RuleData where
  text := "x*(-y)   -> -y*x  WHERE type(x) != CONST ; type(y) == CONST"
  left := mul (v "x") (neg (v "y"))
  right := mul (neg (v "y")) (v "x")
  conds := [.other (.app 61 [(.app 58 [(v "x")]), (.app 62 [])]), .isConst "y"]

/-- Rules of the ruleset with index 0. -/
def ruleset0 : List RuleData := [r0_0, r0_1, r0_2, r0_3, r0_4, r0_5, r0_6, r0_7, r0_8, r0_9, r0_10, r0_11, r0_12,
  r0_13]

/-- Rules of the ruleset with index 1. -/
def ruleset1 : List RuleData := [r1_0, r1_1, r1_2, r1_3, r1_4, r1_5, r1_6, r1_7, r1_8, r1_9, r1_10, r1_11, r1_12,
  r1_13, r1_14, r1_15, r1_16, r1_17, r1_18, r1_19, r1_20, r1_21, r1_22]

/-- Rules of the ruleset with index 2. -/
def ruleset2 : List RuleData := [r2_0, r2_1, r2_2, r2_3, r2_4, r2_5, r2_6, r2_7, r2_8, r2_9, r2_10, r2_11, r2_12]

/-- Rules of the ruleset with index 3. -/
def ruleset3 : List RuleData := [r3_0, r3_1, r3_2, r3_3, r3_4, r3_5, r3_6, r3_7, r3_8, r3_9, r3_10, r3_11, r3_12,
  r3_13, r3_14, r3_15, r3_16, r3_17, r3_18, r3_19, r3_20, r3_21, r3_22, r3_23, r3_24, r3_25, r3_26, r3_27, r3_28,
  r3_29, r3_30, r3_31, r3_32, r3_33, r3_34, r3_35, r3_36, r3_37, r3_38, r3_39, r3_40, r3_41, r3_42, r3_43, r3_44,
  r3_45, r3_46, r3_47, r3_48, r3_49, r3_50]

/-- Rules of the ruleset with index 4. -/
def ruleset4 : List RuleData := [r4_0, r4_1, r4_2, r4_3, r4_4, r4_5, r4_6, r4_7, r4_8, r4_9]

/-- Rules of the ruleset with index 5. -/
def ruleset5 : List RuleData := [r5_0, r5_1, r5_2, r5_3, r5_4, r5_5, r5_6, r5_7, r5_8, r5_9, r5_10, r5_11, r5_12,
  r5_13, r5_14, r5_15, r5_16, r5_17, r5_18, r5_19, r5_20, r5_21, r5_22]

/-- Rules of the ruleset with index 6. -/
def ruleset6 : List RuleData := [r6_0]

end Verif.Rules
