import Verif.Lemmas.RuleTexts

/-!
# The shipped rules as trees

The operators of the rule files and the sides and conditions of every rule, with all numbers
written out, so that the kernel can compute with them.  That these are the shipped rules is
`rulesAt_shipped` (`Verif.Lemmas.ShippedTrees`).  Generated by evaluating the model of the
parser.
-/

namespace Verif.Shipped
open Verif

/-- Both sides and the conditions of a rule. -/
structure RuleParts where
  left : Tree ℚ
  conds : List (Tree ℚ)
  right : Tree ℚ

/-- What `parse_rule` reads before its last step. -/
def RuleParts.read (p : RuleParts) : Res (Option (Tree ℚ × List (Tree ℚ) × Tree ℚ)) :=
  .ok (some (p.left, p.conds, p.right))

/-- Reading the text of a rule. -/
def readData (r : Rules.RuleData) : Res (Option (Tree ℚ × List (Tree ℚ) × Tree ℚ)) :=
  Rules.ruleParts (ruleParser fun q => q) r.text.toList

/-- The rule for numbers in `V`, see `parseRule`. -/
def RuleParts.rule {V : Type} (f : ℚ → V) (p : RuleParts) : RewriteRule V :=
  match getPattern (p.left.mapVal f) (p.conds.map (Tree.mapVal f)) with
  | .ok pat => (getRule pat (p.right.mapVal f)).getD ⟨pat, p.right.mapVal f⟩
  | .error _ => ⟨⟨p.left.mapVal f, fun _ => []⟩, p.right.mapVal f⟩

def o0 : Op := ⟨['$'], 0, (.fixed 1), 0, .left, .prefix⟩
def o1 : Op := ⟨['@'], 1, (.fixed 1), 8, .left, .prefix⟩
def o2 : Op := ⟨['\''], 2, (.fixed 1), 7, .left, .postfix⟩
def o3 : Op := ⟨['d', 'e', 'r', 'i', 'v'], 3, (.fixed 2), 255, .left, .function⟩
def o4 : Op := ⟨['+'], 4, (.fixed 2), 2, .left, .infix⟩
def o5 : Op := ⟨['-'], 5, (.fixed 2), 2, .left, .infix⟩
def o6 : Op := ⟨['*'], 6, (.fixed 2), 4, .left, .infix⟩
def o7 : Op := ⟨['/'], 7, (.fixed 2), 3, .left, .infix⟩
def o8 : Op := ⟨['^'], 8, (.fixed 2), 5, .right, .infix⟩
def o9 : Op := ⟨['C'], 9, (.fixed 2), 1, .left, .infix⟩
def o10 : Op := ⟨['m', 'o', 'd'], 10, (.fixed 2), 1, .left, .infix⟩
def o11 : Op := ⟨['+'], 11, (.fixed 1), 7, .left, .prefix⟩
def o12 : Op := ⟨['-'], 12, (.fixed 1), 7, .left, .prefix⟩
def o13 : Op := ⟨['!'], 13, (.fixed 1), 6, .left, .postfix⟩
def o14 : Op := ⟨['%'], 14, (.fixed 1), 6, .left, .postfix⟩
def o15 : Op := ⟨['e', 'x', 'p'], 15, (.fixed 1), 255, .left, .function⟩
def o16 : Op := ⟨['r', 'o', 'o', 't'], 16, (.fixed 2), 255, .left, .function⟩
def o17 : Op := ⟨['s', 'q', 'r', 't'], 17, (.fixed 1), 255, .left, .function⟩
def o18 : Op := ⟨['l', 'o', 'g'], 18, (.fixed 2), 255, .left, .function⟩
def o19 : Op := ⟨['l', 'n'], 19, (.fixed 1), 255, .left, .function⟩
def o20 : Op := ⟨['l', 'd'], 20, (.fixed 1), 255, .left, .function⟩
def o21 : Op := ⟨['l', 'g'], 21, (.fixed 1), 255, .left, .function⟩
def o22 : Op := ⟨['s', 'i', 'n'], 22, (.fixed 1), 255, .left, .function⟩
def o23 : Op := ⟨['c', 'o', 's'], 23, (.fixed 1), 255, .left, .function⟩
def o24 : Op := ⟨['t', 'a', 'n'], 24, (.fixed 1), 255, .left, .function⟩
def o25 : Op := ⟨['a', 's', 'i', 'n'], 25, (.fixed 1), 255, .left, .function⟩
def o26 : Op := ⟨['a', 'c', 'o', 's'], 26, (.fixed 1), 255, .left, .function⟩
def o27 : Op := ⟨['a', 't', 'a', 'n'], 27, (.fixed 1), 255, .left, .function⟩
def o28 : Op := ⟨['s', 'i', 'n', 'h'], 28, (.fixed 1), 255, .left, .function⟩
def o29 : Op := ⟨['c', 'o', 's', 'h'], 29, (.fixed 1), 255, .left, .function⟩
def o30 : Op := ⟨['t', 'a', 'n', 'h'], 30, (.fixed 1), 255, .left, .function⟩
def o31 : Op := ⟨['a', 's', 'i', 'n', 'h'], 31, (.fixed 1), 255, .left, .function⟩
def o32 : Op := ⟨['a', 'c', 'o', 's', 'h'], 32, (.fixed 1), 255, .left, .function⟩
def o33 : Op := ⟨['a', 't', 'a', 'n', 'h'], 33, (.fixed 1), 255, .left, .function⟩
def o34 : Op := ⟨['m', 'a', 'x'], 34, .dyn, 255, .left, .function⟩
def o35 : Op := ⟨['m', 'i', 'n'], 35, .dyn, 255, .left, .function⟩
def o36 : Op := ⟨['a', 'b', 's'], 36, (.fixed 1), 255, .left, .function⟩
def o37 : Op := ⟨['c', 'e', 'i', 'l'], 37, (.fixed 1), 255, .left, .function⟩
def o38 : Op := ⟨['f', 'l', 'o', 'o', 'r'], 38, (.fixed 1), 255, .left, .function⟩
def o39 : Op := ⟨['r', 'o', 'u', 'n', 'd'], 39, (.fixed 1), 255, .left, .function⟩
def o40 : Op := ⟨['t', 'r', 'u', 'n', 'c'], 40, (.fixed 1), 255, .left, .function⟩
def o41 : Op := ⟨['f', 'r', 'a', 'c'], 41, (.fixed 1), 255, .left, .function⟩
def o42 : Op := ⟨['s', 'g', 'n'], 42, (.fixed 1), 255, .left, .function⟩
def o43 : Op := ⟨['s', 'u', 'm'], 43, .dyn, 255, .left, .function⟩
def o44 : Op := ⟨['p', 'r', 'o', 'd'], 44, .dyn, 255, .left, .function⟩
def o45 : Op := ⟨['a', 'v', 'g'], 45, .dyn, 255, .left, .function⟩
def o46 : Op := ⟨['g', 'c', 'd'], 46, (.fixed 2), 255, .left, .function⟩
def o47 : Op := ⟨['l', 'c', 'm'], 47, (.fixed 2), 255, .left, .function⟩
def o48 : Op := ⟨['r', 'a', 'n', 'd'], 48, (.fixed 2), 255, .left, .function⟩
def o49 : Op := ⟨['f', 'i', 'b'], 49, (.fixed 1), 255, .left, .function⟩
def o50 : Op := ⟨['g', 'a', 'm', 'm', 'a'], 50, (.fixed 1), 255, .left, .function⟩
def o51 : Op := ⟨['v', 'a', 'r'], 51, .dyn, 255, .left, .function⟩
def o52 : Op := ⟨['p', 'i'], 52, (.fixed 0), 255, .left, .function⟩
def o53 : Op := ⟨['e'], 53, (.fixed 0), 255, .left, .function⟩
def o54 : Op := ⟨['p', 'h', 'i'], 54, (.fixed 0), 255, .left, .function⟩
def o55 : Op := ⟨['c', 'l', 'i', 'g', 'h', 't'], 55, (.fixed 0), 255, .left, .function⟩
def o56 : Op := ⟨['c', 's', 'o', 'u', 'n', 'd'], 56, (.fixed 0), 255, .left, .function⟩
def o57 : Op := ⟨['a', 'n', 's'], 57, (.fixed 0), 255, .left, .function⟩
def o58 : Op := ⟨['t', 'y', 'p', 'e'], 58, (.fixed 1), 255, .left, .function⟩
def o59 : Op := ⟨['e', 'q', 'u', 'a', 'l'], 59, (.fixed 2), 255, .left, .function⟩
def o60 : Op := ⟨['=', '='], 60, (.fixed 2), 1, .left, .infix⟩
def o61 : Op := ⟨['!', '='], 61, (.fixed 2), 1, .left, .infix⟩
def o62 : Op := ⟨['C', 'O', 'N', 'S', 'T'], 62, (.fixed 0), 255, .left, .function⟩
def o63 : Op := ⟨['V', 'A', 'R'], 63, (.fixed 0), 255, .left, .function⟩
def o64 : Op := ⟨['O', 'P'], 64, (.fixed 0), 255, .left, .function⟩
def o65 : Op := ⟨['>'], 65, (.fixed 2), 1, .left, .infix⟩
def o66 : Op := ⟨['<'], 66, (.fixed 2), 1, .left, .infix⟩
def o67 : Op := ⟨['>', '='], 67, (.fixed 2), 1, .left, .infix⟩
def o68 : Op := ⟨['<', '='], 68, (.fixed 2), 1, .left, .infix⟩
def o69 : Op := ⟨['|', '|'], 69, (.fixed 2), 0, .left, .infix⟩
def o70 : Op := ⟨['T', 'R', 'U', 'E'], 70, (.fixed 0), 255, .left, .function⟩
def o71 : Op := ⟨['F', 'A', 'L', 'S', 'E'], 71, (.fixed 0), 255, .left, .function⟩
def o72 : Op := ⟨['!'], 72, (.fixed 1), 4, .left, .prefix⟩
def o73 : Op := ⟨['c', 'o', 'u', 'n', 't'], 73, .dyn, 255, .left, .function⟩

def p0_0 : RuleParts := ⟨(.op o73 [] 0),
  [],
  (.const 0 1)⟩
def p0_1 : RuleParts := ⟨(.op o73 [(.var ['x'] 0 2), (.var ['[', 'x', 's', ']'] 0 4)] 0),
  [],
  (.op o4 [(.const 1 1), (.op o73 [(.var ['[', 'x', 's', ']'] 0 7)] 5)] 3)⟩
def p0_2 : RuleParts := ⟨(.op o11 [(.var ['x'] 0 1)] 0),
  [],
  (.var ['x'] 0 1)⟩
def p0_3 : RuleParts := ⟨(.op o0 [(.var ['x'] 0 1)] 0),
  [],
  (.var ['x'] 0 1)⟩
def p0_4 : RuleParts := ⟨(.op o12 [(.op o12 [(.var ['x'] 0 2)] 1)] 0),
  [],
  (.var ['x'] 0 1)⟩
def p0_5 : RuleParts := ⟨(.op o14 [(.var ['x'] 0 0)] 1),
  [],
  (.op o7 [(.var ['x'] 0 1), (.const 100 3)] 2)⟩
def p0_6 : RuleParts := ⟨(.op o7 [(.op o7 [(.var ['x'] 0 1), (.var ['y'] 0 3)] 2), (.var ['z'] 0 6)] 5),
  [],
  (.op o7 [(.var ['x'] 0 1), (.op o6 [(.var ['y'] 0 4), (.var ['z'] 0 6)] 5)] 2)⟩
def p0_7 : RuleParts := ⟨(.op o7 [(.var ['x'] 0 0), (.var ['y'] 0 2)] 1),
  [],
  (.op o6 [(.var ['x'] 0 1), (.op o8 [(.var ['y'] 0 3), (.op o12 [(.const 1 7)] 6)] 4)] 2)⟩
def p0_8 : RuleParts := ⟨(.op o18 [(.var ['x'] 0 2), (.op o53 [] 5)] 0),
  [],
  (.op o19 [(.var ['x'] 0 3)] 1)⟩
def p0_9 : RuleParts := ⟨(.op o24 [(.var ['x'] 0 2)] 0),
  [],
  (.op o7 [(.op o22 [(.var ['x'] 0 3)] 1), (.op o23 [(.var ['x'] 0 8)] 6)] 5)⟩
def p0_10 : RuleParts := ⟨(.op o17 [(.var ['x'] 0 2)] 0),
  [],
  (.op o8 [(.var ['x'] 0 1), (.const (1/2) 3)] 2)⟩
def p0_11 : RuleParts := ⟨(.op o15 [(.var ['x'] 0 2)] 0),
  [],
  (.op o8 [(.op o53 [] 1), (.var ['x'] 0 3)] 2)⟩
def p0_12 : RuleParts := ⟨(.op o16 [(.var ['x'] 0 2), (.var ['y'] 0 5)] 0),
  [],
  (.op o8 [(.var ['x'] 0 1), (.op o7 [(.const 1 4), (.var ['y'] 0 6)] 5)] 2)⟩
def p0_13 : RuleParts := ⟨(.op o45 [(.var ['[', 'x', 's', ']'] 0 2)] 0),
  [],
  (.op o7 [(.op o43 [(.var ['[', 'x', 's', ']'] 0 3)] 1), (.op o73 [(.var ['[', 'x', 's', ']'] 0 8)] 6)] 5)⟩
def p1_0 : RuleParts := ⟨(.op o6 [(.var ['x'] 0 0), (.const 0 2)] 1),
  [],
  (.const 0 1)⟩
def p1_1 : RuleParts := ⟨(.op o6 [(.const 0 0), (.var ['x'] 0 2)] 1),
  [],
  (.const 0 1)⟩
def p1_2 : RuleParts := ⟨(.op o4 [(.var ['x'] 0 0), (.const 0 2)] 1),
  [],
  (.var ['x'] 0 1)⟩
def p1_3 : RuleParts := ⟨(.op o4 [(.const 0 0), (.var ['x'] 0 2)] 1),
  [],
  (.var ['x'] 0 1)⟩
def p1_4 : RuleParts := ⟨(.op o6 [(.const 1 0), (.var ['x'] 0 2)] 1),
  [],
  (.var ['x'] 0 1)⟩
def p1_5 : RuleParts := ⟨(.op o6 [(.var ['x'] 0 0), (.const 1 2)] 1),
  [],
  (.var ['x'] 0 1)⟩
def p1_6 : RuleParts := ⟨(.op o3 [(.var ['x'] 0 2), (.var ['x'] 0 5)] 0),
  [],
  (.const 1 1)⟩
def p1_7 : RuleParts := ⟨(.op o3 [(.var ['x'] 0 2), (.var ['z'] 0 5)] 0),
  [(.op o61 [(.op o58 [(.var ['x'] 0 2)] 0), (.op o64 [] 7)] 5)],
  (.const 0 1)⟩
def p1_8 : RuleParts := ⟨(.op o3 [(.op o6 [(.var ['c', 'x'] 0 2), (.var ['y'] 0 4)] 3), (.var ['y'] 0 7)] 0),
  [(.op o60 [(.op o58 [(.var ['c', 'x'] 0 2)] 0), (.op o62 [] 7)] 5)],
  (.var ['c', 'x'] 0 1)⟩
def p1_9 : RuleParts := ⟨(.op o3 [(.op o6 [(.var ['c', 'x'] 0 2), (.op o8 [(.var ['z'] 0 6), (.var ['c', 'y'] 0 8)] 7)] 4), (.var ['z'] 0 11)] 0),
  [(.op o60 [(.op o58 [(.var ['c', 'x'] 0 2)] 0), (.op o62 [] 7)] 5), (.op o60 [(.op o58 [(.var ['c', 'y'] 0 2)] 0), (.op o62 [] 7)] 5)],
  (.op o6 [(.op o6 [(.var ['c', 'x'] 0 1), (.var ['c', 'y'] 0 3)] 2), (.op o8 [(.var ['z'] 0 5), (.op o5 [(.var ['c', 'y'] 0 8), (.const 1 10)] 9)] 6)] 4)⟩
def p1_10 : RuleParts := ⟨(.op o3 [(.op o12 [(.var ['x'] 0 3)] 2), (.var ['z'] 0 6)] 0),
  [],
  (.op o12 [(.op o3 [(.var ['x'] 0 4), (.var ['z'] 0 7)] 2)] 1)⟩
def p1_11 : RuleParts := ⟨(.op o3 [(.op o4 [(.var ['x'] 0 2), (.var ['y'] 0 6)] 4), (.var ['z'] 0 9)] 0),
  [],
  (.op o4 [(.op o3 [(.var ['x'] 0 3), (.var ['z'] 0 6)] 1), (.op o3 [(.var ['y'] 0 13), (.var ['z'] 0 16)] 11)] 9)⟩
def p1_12 : RuleParts := ⟨(.op o3 [(.op o5 [(.var ['x'] 0 2), (.var ['y'] 0 6)] 4), (.var ['z'] 0 9)] 0),
  [],
  (.op o5 [(.op o3 [(.var ['x'] 0 3), (.var ['z'] 0 6)] 1), (.op o3 [(.var ['y'] 0 13), (.var ['z'] 0 16)] 11)] 9)⟩
def p1_13 : RuleParts := ⟨(.op o3 [(.op o6 [(.var ['x'] 0 2), (.var ['y'] 0 4)] 3), (.var ['z'] 0 7)] 0),
  [],
  (.op o4 [(.op o6 [(.op o3 [(.var ['x'] 0 3), (.var ['z'] 0 6)] 1), (.var ['y'] 0 9)] 8), (.op o6 [(.var ['x'] 0 13), (.op o3 [(.var ['y'] 0 17), (.var ['z'] 0 20)] 15)] 14)] 11)⟩
def p1_14 : RuleParts := ⟨(.op o3 [(.op o22 [(.var ['x'] 0 4)] 2), (.var ['z'] 0 8)] 0),
  [],
  (.op o6 [(.op o23 [(.var ['x'] 0 3)] 1), (.op o3 [(.var ['x'] 0 10), (.var ['z'] 0 13)] 8)] 6)⟩
def p1_15 : RuleParts := ⟨(.op o3 [(.op o23 [(.var ['x'] 0 4)] 2), (.var ['z'] 0 8)] 0),
  [],
  (.op o6 [(.op o12 [(.op o22 [(.var ['x'] 0 4)] 2)] 1), (.op o3 [(.var ['x'] 0 11), (.var ['z'] 0 14)] 9)] 7)⟩
def p1_16 : RuleParts := ⟨(.op o3 [(.op o24 [(.var ['x'] 0 4)] 2), (.var ['z'] 0 8)] 0),
  [],
  (.op o6 [(.op o3 [(.var ['x'] 0 3), (.var ['z'] 0 6)] 1), (.op o8 [(.op o23 [(.var ['x'] 0 13)] 11), (.op o12 [(.const 2 17)] 16)] 15)] 9)⟩
def p1_17 : RuleParts := ⟨(.op o3 [(.op o25 [(.var ['x'] 0 4)] 2), (.var ['z'] 0 8)] 0),
  [],
  (.op o7 [(.op o3 [(.var ['x'] 0 3), (.var ['z'] 0 6)] 1), (.op o17 [(.op o5 [(.const 1 13), (.op o8 [(.var ['x'] 0 17), (.const 2 19)] 18)] 15)] 11)] 9)⟩
def p1_18 : RuleParts := ⟨(.op o3 [(.op o26 [(.var ['x'] 0 4)] 2), (.var ['z'] 0 8)] 0),
  [],
  (.op o7 [(.op o12 [(.op o3 [(.var ['x'] 0 4), (.var ['z'] 0 7)] 2)] 1), (.op o17 [(.op o5 [(.const 1 14), (.op o8 [(.var ['x'] 0 18), (.const 2 20)] 19)] 16)] 12)] 10)⟩
def p1_19 : RuleParts := ⟨(.op o3 [(.op o27 [(.var ['x'] 0 4)] 2), (.var ['z'] 0 8)] 0),
  [],
  (.op o7 [(.op o3 [(.var ['x'] 0 3), (.var ['z'] 0 6)] 1), (.op o4 [(.op o8 [(.var ['x'] 0 12), (.const 2 14)] 13), (.const 1 18)] 16)] 9)⟩
def p1_20 : RuleParts := ⟨(.op o3 [(.op o8 [(.op o53 [] 2), (.var ['y'] 0 4)] 3), (.var ['z'] 0 7)] 0),
  [],
  (.op o6 [(.op o3 [(.var ['y'] 0 3), (.var ['z'] 0 6)] 1), (.op o8 [(.op o53 [] 9), (.var ['y'] 0 11)] 10)] 8)⟩
def p1_21 : RuleParts := ⟨(.op o3 [(.op o8 [(.var ['x'] 0 2), (.var ['y'] 0 4)] 3), (.var ['z'] 0 7)] 0),
  [],
  (.op o6 [(.op o4 [(.op o6 [(.op o6 [(.var ['y'] 0 2), (.op o3 [(.var ['x'] 0 8), (.var ['z'] 0 11)] 6)] 4), (.op o8 [(.var ['x'] 0 16), (.op o12 [(.const 1 19)] 18)] 17)] 14), (.op o6 [(.op o3 [(.var ['y'] 0 25), (.var ['z'] 0 28)] 23), (.op o19 [(.var ['x'] 0 35)] 33)] 31)] 21), (.op o8 [(.var ['x'] 0 41), (.var ['y'] 0 43)] 42)] 39)⟩
def p1_22 : RuleParts := ⟨(.op o3 [(.op o19 [(.var ['x'] 0 4)] 2), (.var ['z'] 0 8)] 0),
  [],
  (.op o6 [(.op o3 [(.var ['x'] 0 3), (.var ['z'] 0 6)] 1), (.op o8 [(.var ['x'] 0 9), (.op o12 [(.const 1 13)] 12)] 10)] 8)⟩
def p2_0 : RuleParts := ⟨(.op o5 [(.var ['x'] 0 0), (.var ['y'] 0 2)] 1),
  [],
  (.op o4 [(.var ['x'] 0 1), (.op o12 [(.var ['y'] 0 5)] 4)] 2)⟩
def p2_1 : RuleParts := ⟨(.op o12 [(.op o4 [(.var ['x'] 0 2), (.var ['y'] 0 4)] 3)] 0),
  [],
  (.op o4 [(.op o12 [(.var ['x'] 0 2)] 1), (.op o12 [(.var ['y'] 0 6)] 5)] 3)⟩
def p2_2 : RuleParts := ⟨(.op o12 [(.op o6 [(.var ['x'] 0 2), (.var ['y'] 0 4)] 3)] 0),
  [],
  (.op o6 [(.op o12 [(.var ['x'] 0 3)] 2), (.var ['y'] 0 6)] 5)⟩
def p2_3 : RuleParts := ⟨(.op o6 [(.var ['x'] 0 0), (.var ['y'] 0 2)] 1),
  [],
  (.op o44 [(.var ['x'] 0 3), (.var ['y'] 0 5)] 1)⟩
def p2_4 : RuleParts := ⟨(.op o44 [(.var ['[', 'x', 's', ']'] 0 2), (.op o44 [(.var ['[', 'y', 's', ']'] 0 7)] 5), (.var ['[', 'z', 's', ']'] 0 11)] 0),
  [],
  (.op o44 [(.var ['[', 'x', 's', ']'] 0 3), (.var ['[', 'y', 's', ']'] 0 6), (.var ['[', 'z', 's', ']'] 0 9)] 1)⟩
def p2_5 : RuleParts := ⟨(.op o6 [(.op o44 [(.var ['[', 'x', 's', ']'] 0 2)] 0), (.op o44 [(.var ['[', 'y', 's', ']'] 0 7)] 5)] 4),
  [],
  (.op o44 [(.var ['[', 'x', 's', ']'] 0 3), (.var ['[', 'y', 's', ']'] 0 6)] 1)⟩
def p2_6 : RuleParts := ⟨(.op o6 [(.var ['x'] 0 0), (.op o44 [(.var ['[', 'x', 's', ']'] 0 4)] 2)] 1),
  [],
  (.op o44 [(.var ['x'] 0 3), (.var ['[', 'x', 's', ']'] 0 6)] 1)⟩
def p2_7 : RuleParts := ⟨(.op o6 [(.op o44 [(.var ['[', 'x', 's', ']'] 0 2)] 0), (.var ['x'] 0 5)] 4),
  [],
  (.op o44 [(.var ['[', 'x', 's', ']'] 0 3), (.var ['x'] 0 6)] 1)⟩
def p2_8 : RuleParts := ⟨(.op o4 [(.var ['x'] 0 0), (.var ['y'] 0 2)] 1),
  [],
  (.op o43 [(.var ['x'] 0 3), (.var ['y'] 0 5)] 1)⟩
def p2_9 : RuleParts := ⟨(.op o43 [(.var ['[', 'x', 's', ']'] 0 2), (.op o43 [(.var ['[', 'y', 's', ']'] 0 7)] 5), (.var ['[', 'z', 's', ']'] 0 11)] 0),
  [],
  (.op o43 [(.var ['[', 'x', 's', ']'] 0 3), (.var ['[', 'y', 's', ']'] 0 6), (.var ['[', 'z', 's', ']'] 0 9)] 1)⟩
def p2_10 : RuleParts := ⟨(.op o4 [(.op o43 [(.var ['[', 'x', 's', ']'] 0 2)] 0), (.op o43 [(.var ['[', 'y', 's', ']'] 0 7)] 5)] 4),
  [],
  (.op o43 [(.var ['[', 'x', 's', ']'] 0 3), (.var ['[', 'y', 's', ']'] 0 6)] 1)⟩
def p2_11 : RuleParts := ⟨(.op o4 [(.var ['x'] 0 0), (.op o43 [(.var ['[', 'x', 's', ']'] 0 4)] 2)] 1),
  [],
  (.op o43 [(.var ['x'] 0 3), (.var ['[', 'x', 's', ']'] 0 6)] 1)⟩
def p2_12 : RuleParts := ⟨(.op o4 [(.op o43 [(.var ['[', 'x', 's', ']'] 0 2)] 0), (.var ['x'] 0 5)] 4),
  [],
  (.op o43 [(.var ['[', 'x', 's', ']'] 0 3), (.var ['x'] 0 6)] 1)⟩
def p3_0 : RuleParts := ⟨(.op o44 [] 0),
  [],
  (.const 1 1)⟩
def p3_1 : RuleParts := ⟨(.op o44 [(.var ['x'] 0 2)] 0),
  [],
  (.var ['x'] 0 1)⟩
def p3_2 : RuleParts := ⟨(.op o43 [] 0),
  [],
  (.const 0 1)⟩
def p3_3 : RuleParts := ⟨(.op o43 [(.var ['x'] 0 2)] 0),
  [],
  (.var ['x'] 0 1)⟩
def p3_4 : RuleParts := ⟨(.op o44 [(.var ['[', 'x', 's', ']'] 0 2), (.const 0 5), (.var ['[', 'y', 's', ']'] 0 8)] 0),
  [],
  (.const 0 1)⟩
def p3_5 : RuleParts := ⟨(.op o44 [(.var ['[', 'x', 's', ']'] 0 2), (.const 1 5), (.var ['[', 'y', 's', ']'] 0 8)] 0),
  [],
  (.op o44 [(.var ['[', 'x', 's', ']'] 0 3), (.var ['[', 'y', 's', ']'] 0 6)] 1)⟩
def p3_6 : RuleParts := ⟨(.op o43 [(.var ['[', 'x', 's', ']'] 0 2), (.const 0 5), (.var ['[', 'y', 's', ']'] 0 8)] 0),
  [],
  (.op o43 [(.var ['[', 'x', 's', ']'] 0 3), (.var ['[', 'y', 's', ']'] 0 6)] 1)⟩
def p3_7 : RuleParts := ⟨(.op o43 [(.var ['[', 'x', 's', ']'] 0 2), (.op o43 [(.var ['[', 'y', 's', ']'] 0 7)] 5), (.var ['[', 'z', 's', ']'] 0 11)] 0),
  [],
  (.op o43 [(.var ['[', 'x', 's', ']'] 0 3), (.var ['[', 'y', 's', ']'] 0 6), (.var ['[', 'z', 's', ']'] 0 9)] 1)⟩
def p3_8 : RuleParts := ⟨(.op o44 [(.var ['[', 'x', 's', ']'] 0 2), (.op o44 [(.var ['[', 'y', 's', ']'] 0 7)] 5), (.var ['[', 'z', 's', ']'] 0 11)] 0),
  [],
  (.op o44 [(.var ['[', 'x', 's', ']'] 0 3), (.var ['[', 'y', 's', ']'] 0 6), (.var ['[', 'z', 's', ']'] 0 9)] 1)⟩
def p3_9 : RuleParts := ⟨(.op o12 [(.op o12 [(.var ['x'] 0 2)] 1)] 0),
  [],
  (.var ['x'] 0 1)⟩
def p3_10 : RuleParts := ⟨(.op o7 [(.var ['x'] 0 0), (.const 0 2)] 1),
  [(.op o61 [(.var ['x'] 0 0), (.const 0 4)] 2)],
  (.op o7 [(.const 0 1), (.const 0 3)] 2)⟩
def p3_11 : RuleParts := ⟨(.op o43 [(.var ['[', 'x', 's', ']'] 0 2), (.op o8 [(.var ['x'] 0 5), (.var ['y'] 0 7)] 6), (.var ['[', 'y', 's', ']'] 0 10), (.op o44 [(.var ['[', 'y', 'y', 's', ']'] 0 15)] 13), (.var ['[', 'z', 's', ']'] 0 19)] 0),
  [],
  (.op o43 [(.var ['[', 'x', 's', ']'] 0 3), (.op o44 [(.var ['[', 'y', 'y', 's', ']'] 0 8)] 6), (.var ['[', 'y', 's', ']'] 0 12), (.op o8 [(.var ['x'] 0 15), (.var ['y'] 0 17)] 16), (.var ['[', 'z', 's', ']'] 0 20)] 1)⟩
def p3_12 : RuleParts := ⟨(.op o44 [(.var ['[', 'x', 's', ']'] 0 2), (.op o8 [(.var ['x'] 0 5), (.var ['y'] 0 7)] 6), (.var ['[', 'y', 's', ']'] 0 10), (.op o43 [(.var ['[', 'y', 'y', 's', ']'] 0 15)] 13), (.var ['[', 'z', 's', ']'] 0 19)] 0),
  [],
  (.op o44 [(.var ['[', 'x', 's', ']'] 0 3), (.op o43 [(.var ['[', 'y', 'y', 's', ']'] 0 8)] 6), (.var ['[', 'y', 's', ']'] 0 12), (.op o8 [(.var ['x'] 0 15), (.var ['y'] 0 17)] 16), (.var ['[', 'z', 's', ']'] 0 20)] 1)⟩
def p3_13 : RuleParts := ⟨(.op o44 [(.var ['c', 'x'] 0 2), (.var ['[', 'x', 's', ']'] 0 5), (.op o43 [(.var ['c', 'y'] 0 10), (.var ['[', 'x', 'x', 's', ']'] 0 13)] 8), (.var ['[', 'z', 's', ']'] 0 17)] 0),
  [(.op o60 [(.op o58 [(.var ['c', 'x'] 0 2)] 0), (.op o62 [] 5)] 4), (.op o60 [(.op o58 [(.var ['c', 'y'] 0 2)] 0), (.op o62 [] 5)] 4)],
  (.op o44 [(.var ['[', 'x', 's', ']'] 0 3), (.op o43 [(.op o6 [(.var ['c', 'x'] 0 8), (.var ['c', 'y'] 0 10)] 9), (.op o44 [(.var ['c', 'x'] 0 15), (.op o43 [(.var ['[', 'x', 'x', 's', ']'] 0 20)] 18)] 13)] 6), (.var ['[', 'z', 's', ']'] 0 26)] 1)⟩
def p3_14 : RuleParts := ⟨(.op o43 [(.var ['[', 'x', 's', ']'] 0 2), (.var ['x'] 0 5), (.var ['[', 'y', 's', ']'] 0 8), (.var ['y'] 0 11), (.var ['[', 'z', 's', ']'] 0 14)] 0),
  [(.op o69 [(.op o59 [(.var ['y'] 0 2), (.op o12 [(.var ['x'] 0 5)] 4)] 0), (.op o59 [(.var ['x'] 0 12), (.op o12 [(.var ['y'] 0 15)] 14)] 10)] 8)],
  (.op o43 [(.var ['[', 'x', 's', ']'] 0 3), (.var ['[', 'y', 's', ']'] 0 6), (.var ['[', 'z', 's', ']'] 0 9)] 1)⟩
def p3_15 : RuleParts := ⟨(.op o12 [(.op o43 [(.var ['x'] 0 3), (.var ['[', 'x', 's', ']'] 0 5)] 1)] 0),
  [],
  (.op o43 [(.op o12 [(.var ['x'] 0 4)] 3), (.op o12 [(.op o43 [(.var ['[', 'x', 's', ']'] 0 9)] 7)] 6)] 1)⟩
def p3_16 : RuleParts := ⟨(.op o12 [(.op o44 [(.var ['x'] 0 3), (.var ['[', 'x', 's', ']'] 0 6)] 1)] 0),
  [],
  (.op o44 [(.op o12 [(.var ['x'] 0 4)] 3), (.var ['[', 'x', 's', ']'] 0 7)] 1)⟩
def p3_17 : RuleParts := ⟨(.op o44 [(.var ['y'] 0 2), (.var ['[', 'x', 's', ']'] 0 5), (.op o12 [(.var ['x'] 0 9)] 8), (.var ['[', 'z', 's', ']'] 0 12)] 0),
  [],
  (.op o44 [(.op o12 [(.var ['y'] 0 4)] 3), (.var ['[', 'x', 's', ']'] 0 7), (.var ['x'] 0 10), (.var ['[', 'z', 's', ']'] 0 13)] 1)⟩
def p3_18 : RuleParts := ⟨(.op o43 [(.var ['[', 'x', 's', ']'] 0 2), (.op o44 [(.var ['c', 'x'] 0 7), (.var ['y'] 0 10)] 5), (.var ['[', 'y', 's', ']'] 0 14), (.var ['y'] 0 17), (.var ['[', 'z', 's', ']'] 0 20)] 0),
  [(.op o60 [(.op o58 [(.var ['c', 'x'] 0 2)] 0), (.op o62 [] 5)] 4)],
  (.op o43 [(.var ['[', 'x', 's', ']'] 0 3), (.op o44 [(.op o4 [(.var ['c', 'x'] 0 8), (.const 1 12)] 10), (.var ['y'] 0 15)] 6), (.var ['[', 'y', 's', ']'] 0 19), (.var ['[', 'z', 's', ']'] 0 22)] 1)⟩
def p3_19 : RuleParts := ⟨(.op o43 [(.var ['[', 'x', 's', ']'] 0 2), (.op o44 [(.var ['c', 'x'] 0 7), (.var ['y'] 0 10)] 5), (.var ['[', 'y', 's', ']'] 0 14), (.op o12 [(.var ['y'] 0 18)] 17), (.var ['[', 'z', 's', ']'] 0 21)] 0),
  [(.op o60 [(.op o58 [(.var ['c', 'x'] 0 2)] 0), (.op o62 [] 5)] 4)],
  (.op o43 [(.var ['[', 'x', 's', ']'] 0 3), (.op o44 [(.op o5 [(.var ['c', 'x'] 0 8), (.const 1 12)] 10), (.var ['y'] 0 15)] 6), (.var ['[', 'y', 's', ']'] 0 19), (.var ['[', 'z', 's', ']'] 0 22)] 1)⟩
def p3_20 : RuleParts := ⟨(.op o43 [(.var ['[', 'x', 's', ']'] 0 2), (.var ['x'] 0 5), (.var ['[', 'y', 's', ']'] 0 8), (.var ['x'] 0 11), (.var ['[', 'z', 's', ']'] 0 14)] 0),
  [],
  (.op o43 [(.var ['[', 'x', 's', ']'] 0 3), (.op o44 [(.const 2 8), (.var ['x'] 0 10)] 6), (.var ['[', 'y', 's', ']'] 0 14), (.var ['[', 'z', 's', ']'] 0 17)] 1)⟩
def p3_21 : RuleParts := ⟨(.op o43 [(.var ['[', 'x', 's', ']'] 0 2), (.op o44 [(.var ['[', 'x', 'x', 's', ']'] 0 7), (.var ['x'] 0 10), (.var ['[', 'y', 'y', 's', ']'] 0 13)] 5), (.var ['[', 'y', 's', ']'] 0 17), (.op o44 [(.var ['[', 'x', 'x', 'x', 's', ']'] 0 22), (.var ['x'] 0 25), (.var ['[', 'y', 'y', 'y', 's', ']'] 0 28)] 20), (.var ['[', 'z', 's', ']'] 0 32)] 0),
  [],
  (.op o43 [(.var ['[', 'x', 's', ']'] 0 3), (.op o44 [(.op o43 [(.op o44 [(.var ['[', 'x', 'x', 's', ']'] 0 12), (.var ['[', 'y', 'y', 's', ']'] 0 15)] 10), (.op o44 [(.var ['[', 'x', 'x', 'x', 's', ']'] 0 21), (.var ['[', 'y', 'y', 'y', 's', ']'] 0 24)] 19)] 8), (.var ['x'] 0 29)] 6), (.var ['[', 'y', 's', ']'] 0 33), (.var ['[', 'z', 's', ']'] 0 36)] 1)⟩
def p3_22 : RuleParts := ⟨(.op o8 [(.op o43 [(.var ['x'] 0 2), (.var ['y'] 0 5)] 0), (.const 2 8)] 7),
  [(.op o60 [(.op o58 [(.var ['x'] 0 2)] 0), (.op o62 [] 7)] 5)],
  (.op o43 [(.op o44 [(.const 2 5), (.var ['x'] 0 7), (.var ['y'] 0 9)] 3), (.op o8 [(.var ['x'] 0 13), (.const 2 15)] 14), (.op o8 [(.var ['y'] 0 18), (.const 2 20)] 19)] 1)⟩
def p3_23 : RuleParts := ⟨(.op o43 [(.op o44 [(.const 2 4), (.var ['x'] 0 7), (.var ['y'] 0 10)] 2), (.op o8 [(.var ['x'] 0 14), (.const 2 16)] 15), (.op o8 [(.var ['y'] 0 19), (.const 2 21)] 20)] 0),
  [(.op o61 [(.op o58 [(.var ['x'] 0 2)] 0), (.op o62 [] 7)] 5)],
  (.op o8 [(.op o43 [(.var ['x'] 0 3), (.var ['y'] 0 6)] 1), (.const 2 9)] 8)⟩
def p3_24 : RuleParts := ⟨(.op o43 [(.op o44 [(.const 2 4), (.var ['y'] 0 7), (.var ['x'] 0 10)] 2), (.op o8 [(.var ['x'] 0 14), (.const 2 16)] 15), (.op o8 [(.var ['y'] 0 19), (.const 2 21)] 20)] 0),
  [(.op o61 [(.op o58 [(.var ['x'] 0 2)] 0), (.op o62 [] 7)] 5)],
  (.op o8 [(.op o43 [(.var ['x'] 0 3), (.var ['y'] 0 6)] 1), (.const 2 9)] 8)⟩
def p3_25 : RuleParts := ⟨(.op o43 [(.op o8 [(.var ['x'] 0 2), (.const 2 4)] 3), (.op o44 [(.const 2 9), (.var ['x'] 0 12), (.var ['y'] 0 15)] 7), (.op o8 [(.var ['y'] 0 19), (.const 2 21)] 20)] 0),
  [(.op o61 [(.op o58 [(.var ['x'] 0 2)] 0), (.op o62 [] 7)] 5)],
  (.op o8 [(.op o43 [(.var ['x'] 0 3), (.var ['y'] 0 6)] 1), (.const 2 9)] 8)⟩
def p3_26 : RuleParts := ⟨(.op o43 [(.op o8 [(.var ['x'] 0 2), (.const 2 4)] 3), (.op o8 [(.var ['y'] 0 7), (.const 2 9)] 8), (.op o44 [(.const 2 14), (.var ['y'] 0 17), (.var ['x'] 0 20)] 12)] 0),
  [(.op o61 [(.op o58 [(.var ['x'] 0 2)] 0), (.op o62 [] 7)] 5)],
  (.op o8 [(.op o43 [(.var ['x'] 0 3), (.var ['y'] 0 6)] 1), (.const 2 9)] 8)⟩
def p3_27 : RuleParts := ⟨(.op o8 [(.var ['x'] 0 0), (.const 0 2)] 1),
  [],
  (.const 1 1)⟩
def p3_28 : RuleParts := ⟨(.op o8 [(.var ['x'] 0 0), (.const 1 2)] 1),
  [],
  (.var ['x'] 0 1)⟩
def p3_29 : RuleParts := ⟨(.op o8 [(.op o8 [(.var ['x'] 0 1), (.var ['y'] 0 3)] 2), (.var ['z'] 0 6)] 5),
  [],
  (.op o8 [(.var ['x'] 0 1), (.op o44 [(.var ['y'] 0 5), (.var ['z'] 0 8)] 3)] 2)⟩
def p3_30 : RuleParts := ⟨(.op o44 [(.var ['[', 'x', 's', ']'] 0 2), (.op o8 [(.var ['x'] 0 5), (.var ['c', 'y'] 0 7)] 6), (.var ['[', 'y', 's', ']'] 0 10), (.op o8 [(.var ['x'] 0 13), (.var ['c', 'z'] 0 15)] 14), (.var ['[', 'z', 's', ']'] 0 18)] 0),
  [(.op o60 [(.op o58 [(.var ['c', 'y'] 0 2)] 0), (.op o62 [] 5)] 4), (.op o60 [(.op o58 [(.var ['c', 'z'] 0 2)] 0), (.op o62 [] 5)] 4)],
  (.op o44 [(.var ['[', 'x', 's', ']'] 0 3), (.op o8 [(.var ['x'] 0 6), (.op o43 [(.var ['c', 'y'] 0 10), (.var ['c', 'z'] 0 12)] 8)] 7), (.var ['[', 'y', 's', ']'] 0 16), (.var ['[', 'z', 's', ']'] 0 19)] 1)⟩
def p3_31 : RuleParts := ⟨(.op o44 [(.var ['[', 'x', 's', ']'] 0 2), (.op o8 [(.var ['c', 'y'] 0 5), (.var ['x'] 0 7)] 6), (.var ['[', 'y', 's', ']'] 0 10), (.op o8 [(.var ['c', 'z'] 0 13), (.var ['x'] 0 15)] 14), (.var ['[', 'z', 's', ']'] 0 18)] 0),
  [(.op o60 [(.op o58 [(.var ['c', 'y'] 0 2)] 0), (.op o62 [] 5)] 4), (.op o60 [(.op o58 [(.var ['c', 'z'] 0 2)] 0), (.op o62 [] 5)] 4)],
  (.op o44 [(.var ['[', 'x', 's', ']'] 0 3), (.op o8 [(.op o6 [(.var ['c', 'y'] 0 7), (.var ['c', 'z'] 0 9)] 8), (.var ['x'] 0 12)] 11), (.var ['[', 'y', 's', ']'] 0 15), (.var ['[', 'z', 's', ']'] 0 18)] 1)⟩
def p3_32 : RuleParts := ⟨(.op o44 [(.var ['[', 'x', 's', ']'] 0 2), (.var ['x'] 0 5), (.var ['[', 'y', 's', ']'] 0 8), (.var ['x'] 0 11), (.var ['[', 'z', 's', ']'] 0 14)] 0),
  [],
  (.op o44 [(.var ['[', 'x', 's', ']'] 0 3), (.op o8 [(.var ['x'] 0 6), (.const 2 8)] 7), (.var ['[', 'y', 's', ']'] 0 11), (.var ['[', 'z', 's', ']'] 0 14)] 1)⟩
def p3_33 : RuleParts := ⟨(.op o44 [(.var ['[', 'x', 's', ']'] 0 2), (.var ['x'] 0 5), (.var ['[', 'y', 's', ']'] 0 8), (.op o8 [(.var ['x'] 0 11), (.var ['y'] 0 13)] 12), (.var ['[', 'z', 's', ']'] 0 16)] 0),
  [],
  (.op o44 [(.var ['[', 'x', 's', ']'] 0 3), (.op o8 [(.var ['x'] 0 6), (.op o43 [(.var ['y'] 0 10), (.const 1 12)] 8)] 7), (.var ['[', 'y', 's', ']'] 0 16), (.var ['[', 'z', 's', ']'] 0 19)] 1)⟩
def p3_34 : RuleParts := ⟨(.op o8 [(.op o44 [(.var ['x'] 0 2), (.var ['y'] 0 5)] 0), (.var ['z'] 0 8)] 7),
  [],
  (.op o44 [(.op o8 [(.var ['x'] 0 3), (.var ['z'] 0 5)] 4), (.op o8 [(.var ['y'] 0 8), (.var ['z'] 0 10)] 9)] 1)⟩
def p3_35 : RuleParts := ⟨(.op o44 [(.var ['[', 'x', 's', ']'] 0 2), (.op o8 [(.var ['x'] 0 5), (.var ['y'] 0 7)] 6), (.var ['[', 'y', 's', ']'] 0 10), (.var ['x'] 0 13), (.var ['[', 'z', 's', ']'] 0 16)] 0),
  [],
  (.op o44 [(.var ['[', 'x', 's', ']'] 0 3), (.op o8 [(.var ['x'] 0 6), (.op o43 [(.var ['y'] 0 10), (.const 1 12)] 8)] 7), (.var ['[', 'y', 's', ']'] 0 16), (.var ['[', 'z', 's', ']'] 0 19)] 1)⟩
def p3_36 : RuleParts := ⟨(.op o44 [(.var ['[', 'x', 's', ']'] 0 2), (.op o8 [(.var ['x'] 0 5), (.var ['z'] 0 7)] 6), (.var ['[', 'y', 's', ']'] 0 10), (.op o8 [(.var ['x'] 0 13), (.var ['y'] 0 15)] 14), (.var ['[', 'z', 's', ']'] 0 18)] 0),
  [],
  (.op o44 [(.var ['[', 'x', 's', ']'] 0 3), (.op o8 [(.var ['x'] 0 6), (.op o43 [(.var ['y'] 0 10), (.var ['z'] 0 12)] 8)] 7), (.var ['[', 'y', 's', ']'] 0 16), (.var ['[', 'z', 's', ']'] 0 19)] 1)⟩
def p3_37 : RuleParts := ⟨(.op o44 [(.var ['[', 'x', 's', ']'] 0 2), (.op o43 [(.var ['[', 'x', 'x', 's', ']'] 0 7), (.op o8 [(.var ['x'] 0 10), (.var ['y'] 0 12)] 11), (.var ['[', 'y', 'y', 's', ']'] 0 15)] 5), (.var ['[', 'y', 's', ']'] 0 19), (.op o8 [(.var ['x'] 0 22), (.var ['z'] 0 24)] 23), (.var ['[', 'z', 's', ']'] 0 27)] 0),
  [],
  (.op o43 [(.op o44 [(.var ['[', 'x', 's', ']'] 0 5), (.op o43 [(.var ['[', 'x', 'x', 's', ']'] 0 10), (.var ['[', 'y', 'y', 's', ']'] 0 13)] 8), (.var ['[', 'y', 's', ']'] 0 17), (.op o8 [(.var ['x'] 0 20), (.var ['z'] 0 22)] 21), (.var ['[', 'z', 's', ']'] 0 25)] 3), (.op o8 [(.var ['x'] 0 29), (.op o43 [(.var ['y'] 0 33), (.var ['z'] 0 35)] 31)] 30)] 1)⟩
def p3_38 : RuleParts := ⟨(.op o43 [(.var ['[', 'x', 's', ']'] 0 2), (.op o8 [(.op o23 [(.var ['x'] 0 7)] 5), (.const 2 10)] 9), (.var ['[', 'y', 's', ']'] 0 13), (.op o8 [(.op o22 [(.var ['x'] 0 18)] 16), (.const 2 21)] 20), (.var ['[', 'z', 's', ']'] 0 24)] 0),
  [],
  (.op o43 [(.const 1 3), (.var ['[', 'x', 's', ']'] 0 6), (.var ['[', 'y', 's', ']'] 0 9), (.var ['[', 'z', 's', ']'] 0 12)] 1)⟩
def p3_39 : RuleParts := ⟨(.op o43 [(.var ['[', 'x', 's', ']'] 0 2), (.op o8 [(.op o22 [(.var ['x'] 0 7)] 5), (.const 2 10)] 9), (.var ['[', 'y', 's', ']'] 0 13), (.op o8 [(.op o23 [(.var ['x'] 0 18)] 16), (.const 2 21)] 20), (.var ['[', 'z', 's', ']'] 0 24)] 0),
  [],
  (.op o43 [(.const 1 3), (.var ['[', 'x', 's', ']'] 0 6), (.var ['[', 'y', 's', ']'] 0 9), (.var ['[', 'z', 's', ']'] 0 12)] 1)⟩
def p3_40 : RuleParts := ⟨(.op o44 [(.var ['[', 'x', 's', ']'] 0 2), (.op o22 [(.var ['x'] 0 7)] 5), (.var ['[', 'y', 's', ']'] 0 11), (.op o8 [(.op o23 [(.var ['x'] 0 16)] 14), (.op o12 [(.const 1 20)] 19)] 18), (.var ['[', 'z', 's', ']'] 0 23)] 0),
  [],
  (.op o44 [(.var ['[', 'x', 's', ']'] 0 3), (.op o24 [(.var ['x'] 0 8)] 6), (.var ['[', 'y', 's', ']'] 0 12), (.var ['[', 'z', 's', ']'] 0 15)] 1)⟩
def p3_41 : RuleParts := ⟨(.op o44 [(.var ['[', 'x', 's', ']'] 0 2), (.op o8 [(.op o22 [(.var ['x'] 0 7)] 5), (.var ['y'] 0 10)] 9), (.var ['[', 'y', 's', ']'] 0 13), (.op o8 [(.op o23 [(.var ['x'] 0 18)] 16), (.op o12 [(.var ['y'] 0 22)] 21)] 20), (.var ['[', 'z', 's', ']'] 0 25)] 0),
  [],
  (.op o44 [(.var ['[', 'x', 's', ']'] 0 3), (.op o8 [(.op o24 [(.var ['x'] 0 8)] 6), (.var ['y'] 0 11)] 10), (.var ['[', 'y', 's', ']'] 0 14), (.var ['[', 'z', 's', ']'] 0 17)] 1)⟩
def p3_42 : RuleParts := ⟨(.op o35 [(.var ['[', 'x', 's', ']'] 0 2), (.var ['x'] 0 5), (.var ['[', 'y', 's', ']'] 0 8), (.var ['x'] 0 11), (.var ['[', 'z', 's', ']'] 0 14)] 0),
  [],
  (.op o35 [(.var ['[', 'x', 's', ']'] 0 3), (.var ['x'] 0 6), (.var ['[', 'y', 's', ']'] 0 9), (.var ['[', 'z', 's', ']'] 0 12)] 1)⟩
def p3_43 : RuleParts := ⟨(.op o34 [(.var ['[', 'x', 's', ']'] 0 2), (.var ['x'] 0 5), (.var ['[', 'y', 's', ']'] 0 8), (.var ['x'] 0 11), (.var ['[', 'z', 's', ']'] 0 14)] 0),
  [],
  (.op o34 [(.var ['[', 'x', 's', ']'] 0 3), (.var ['x'] 0 6), (.var ['[', 'y', 's', ']'] 0 9), (.var ['[', 'z', 's', ']'] 0 12)] 1)⟩
def p3_44 : RuleParts := ⟨(.op o8 [(.op o12 [(.var ['x'] 0 2)] 1), (.var ['y'] 0 5)] 4),
  [(.op o60 [(.op o10 [(.var ['y'] 0 1), (.const 2 5)] 3), (.const 0 10)] 8)],
  (.op o8 [(.var ['x'] 0 1), (.var ['y'] 0 3)] 2)⟩
def p3_45 : RuleParts := ⟨(.op o43 [(.var ['[', 'x', 's', ']'] 0 2), (.var ['c', 'X'] 0 4), (.var ['[', 'y', 's', ']'] 0 6), (.var ['c', 'Y'] 0 8), (.var ['[', 'z', 's', ']'] 0 10)] 0),
  [(.op o60 [(.op o58 [(.var ['c', 'X'] 0 2)] 0), (.op o62 [] 7)] 5), (.op o60 [(.op o58 [(.var ['c', 'Y'] 0 2)] 0), (.op o62 [] 7)] 5)],
  (.op o43 [(.op o4 [(.var ['c', 'X'] 0 3), (.var ['c', 'Y'] 0 5)] 4), (.var ['[', 'x', 's', ']'] 0 7), (.var ['[', 'y', 's', ']'] 0 9), (.var ['[', 'z', 's', ']'] 0 11)] 1)⟩
def p3_46 : RuleParts := ⟨(.op o43 [(.op o4 [(.var ['x'] 0 2), (.var ['y'] 0 4)] 3), (.var ['[', 'x', 's', ']'] 0 6), (.var ['c', 'X'] 0 8), (.var ['[', 'y', 's', ']'] 0 10)] 0),
  [(.op o60 [(.op o58 [(.var ['c', 'X'] 0 2)] 0), (.op o62 [] 7)] 5)],
  (.op o43 [(.op o4 [(.op o4 [(.var ['x'] 0 3), (.var ['y'] 0 5)] 4), (.var ['c', 'X'] 0 7)] 6), (.var ['[', 'x', 's', ']'] 0 9), (.var ['[', 'y', 's', ']'] 0 11)] 1)⟩
def p3_47 : RuleParts := ⟨(.op o43 [(.var ['x'] 0 2), (.var ['[', 'x', 's', ']'] 0 4), (.var ['c', 'X'] 0 6), (.var ['[', 'y', 's', ']'] 0 8)] 0),
  [(.op o60 [(.op o58 [(.var ['c', 'X'] 0 2)] 0), (.op o62 [] 7)] 5)],
  (.op o43 [(.var ['c', 'X'] 0 3), (.var ['x'] 0 5), (.var ['[', 'x', 's', ']'] 0 7), (.var ['[', 'y', 's', ']'] 0 9)] 1)⟩
def p3_48 : RuleParts := ⟨(.op o44 [(.var ['[', 'x', 's', ']'] 0 2), (.var ['c', 'X'] 0 4), (.var ['[', 'y', 's', ']'] 0 6), (.var ['c', 'Y'] 0 8), (.var ['[', 'z', 's', ']'] 0 10)] 0),
  [(.op o60 [(.op o58 [(.var ['c', 'X'] 0 2)] 0), (.op o62 [] 7)] 5), (.op o60 [(.op o58 [(.var ['c', 'Y'] 0 2)] 0), (.op o62 [] 7)] 5)],
  (.op o44 [(.op o6 [(.var ['c', 'X'] 0 3), (.var ['c', 'Y'] 0 5)] 4), (.var ['[', 'x', 's', ']'] 0 7), (.var ['[', 'y', 's', ']'] 0 9), (.var ['[', 'z', 's', ']'] 0 11)] 1)⟩
def p3_49 : RuleParts := ⟨(.op o44 [(.op o6 [(.var ['x'] 0 2), (.var ['y'] 0 4)] 3), (.var ['[', 'x', 's', ']'] 0 6), (.var ['c', 'X'] 0 8), (.var ['[', 'y', 's', ']'] 0 10)] 0),
  [(.op o60 [(.op o58 [(.var ['c', 'X'] 0 2)] 0), (.op o62 [] 7)] 5)],
  (.op o44 [(.op o6 [(.op o6 [(.var ['x'] 0 3), (.var ['y'] 0 5)] 4), (.var ['c', 'X'] 0 7)] 6), (.var ['[', 'x', 's', ']'] 0 9), (.var ['[', 'y', 's', ']'] 0 11)] 1)⟩
def p3_50 : RuleParts := ⟨(.op o44 [(.var ['x'] 0 2), (.var ['[', 'x', 's', ']'] 0 4), (.var ['c', 'X'] 0 6), (.var ['[', 'y', 's', ']'] 0 8)] 0),
  [(.op o60 [(.op o58 [(.var ['c', 'X'] 0 2)] 0), (.op o62 [] 7)] 5)],
  (.op o44 [(.var ['c', 'X'] 0 3), (.var ['x'] 0 5), (.var ['[', 'x', 's', ']'] 0 7), (.var ['[', 'y', 's', ']'] 0 9)] 1)⟩
def p4_0 : RuleParts := ⟨(.op o43 [(.var ['x'] 0 2)] 0),
  [],
  (.var ['x'] 0 1)⟩
def p4_1 : RuleParts := ⟨(.op o44 [(.var ['x'] 0 2)] 0),
  [],
  (.var ['x'] 0 1)⟩
def p4_2 : RuleParts := ⟨(.op o44 [(.op o12 [(.var ['x'] 0 3)] 2), (.var ['[', 'x', 's', ']'] 0 6)] 0),
  [],
  (.op o12 [(.op o44 [(.var ['x'] 0 4), (.var ['[', 'x', 's', ']'] 0 7)] 2)] 1)⟩
def p4_3 : RuleParts := ⟨(.op o43 [(.var ['[', 'x', 's', ']'] 0 2), (.op o12 [(.op o44 [(.var ['[', 'x', 'x', 's', ']'] 0 7)] 5)] 4), (.var ['[', 'y', 's', ']'] 0 10)] 0),
  [],
  (.op o5 [(.op o43 [(.var ['[', 'x', 's', ']'] 0 3), (.var ['[', 'y', 's', ']'] 0 5)] 1), (.op o44 [(.var ['[', 'x', 'x', 's', ']'] 0 10)] 8)] 7)⟩
def p4_4 : RuleParts := ⟨(.op o12 [(.op o43 [(.var ['[', 'x', 's', ']'] 0 3), (.var ['x'] 0 6)] 1)] 0),
  [],
  (.op o5 [(.op o12 [(.op o43 [(.var ['[', 'x', 's', ']'] 0 4)] 2)] 1), (.var ['x'] 0 7)] 6)⟩
def p4_5 : RuleParts := ⟨(.op o43 [(.var ['[', 'x', 's', ']'] 0 2), (.var ['x'] 0 5)] 0),
  [],
  (.op o4 [(.op o43 [(.var ['[', 'x', 's', ']'] 0 3)] 1), (.var ['x'] 0 6)] 5)⟩
def p4_6 : RuleParts := ⟨(.op o44 [(.var ['[', 'x', 's', ']'] 0 2), (.var ['x'] 0 5)] 0),
  [],
  (.op o6 [(.op o44 [(.var ['[', 'x', 's', ']'] 0 3)] 1), (.var ['x'] 0 6)] 5)⟩
def p4_7 : RuleParts := ⟨(.op o43 [(.var ['[', 'x', 's', ']'] 0 2), (.op o44 [(.var ['[', 'x', 'x', 's', ']'] 0 7), (.op o12 [(.var ['x'] 0 11)] 10), (.var ['[', 'y', 'y', 's', ']'] 0 14)] 5), (.var ['[', 'y', 's', ']'] 0 18)] 0),
  [],
  (.op o5 [(.op o43 [(.var ['[', 'x', 's', ']'] 0 3), (.var ['[', 'y', 's', ']'] 0 6)] 1), (.op o44 [(.var ['[', 'x', 'x', 's', ']'] 0 13), (.var ['x'] 0 15), (.var ['[', 'y', 'y', 's', ']'] 0 17)] 11)] 9)⟩
def p4_8 : RuleParts := ⟨(.op o44 [] 0),
  [],
  (.const 1 1)⟩
def p4_9 : RuleParts := ⟨(.op o43 [] 0),
  [],
  (.const 0 1)⟩
def p5_0 : RuleParts := ⟨(.op o6 [(.const 0 0), (.var ['x'] 0 2)] 1),
  [],
  (.const 0 1)⟩
def p5_1 : RuleParts := ⟨(.op o6 [(.const 1 0), (.var ['x'] 0 2)] 1),
  [],
  (.var ['x'] 0 1)⟩
def p5_2 : RuleParts := ⟨(.op o4 [(.const 0 0), (.var ['x'] 0 2)] 1),
  [],
  (.var ['x'] 0 1)⟩
def p5_3 : RuleParts := ⟨(.op o8 [(.var ['x'] 0 0), (.op o12 [(.var ['y'] 0 4)] 3)] 1),
  [],
  (.op o7 [(.const 1 1), (.op o8 [(.var ['x'] 0 4), (.var ['y'] 0 6)] 5)] 2)⟩
def p5_4 : RuleParts := ⟨(.op o8 [(.var ['x'] 0 0), (.const (1/2) 2)] 1),
  [],
  (.op o17 [(.var ['x'] 0 3)] 1)⟩
def p5_5 : RuleParts := ⟨(.op o8 [(.var ['x'] 0 0), (.const 1 2)] 1),
  [],
  (.var ['x'] 0 1)⟩
def p5_6 : RuleParts := ⟨(.op o12 [(.op o4 [(.var ['x'] 0 2), (.var ['y'] 0 4)] 3)] 0),
  [],
  (.op o5 [(.var ['x'] 0 1), (.var ['y'] 0 3)] 2)⟩
def p5_7 : RuleParts := ⟨(.op o6 [(.op o12 [(.const 1 2)] 1), (.var ['x'] 0 5)] 4),
  [],
  (.op o12 [(.var ['x'] 0 2)] 1)⟩
def p5_8 : RuleParts := ⟨(.op o6 [(.var ['x'] 0 0), (.op o7 [(.var ['y'] 0 3), (.var ['z'] 0 5)] 4)] 1),
  [(.op o60 [(.op o58 [(.var ['y'] 0 2)] 0), (.op o62 [] 7)] 5)],
  (.op o7 [(.op o6 [(.var ['y'] 0 2), (.var ['x'] 0 4)] 3), (.var ['z'] 0 7)] 6)⟩
def p5_9 : RuleParts := ⟨(.op o4 [(.var ['x'] 0 0), (.op o7 [(.op o12 [(.var ['y'] 0 5)] 4), (.var ['z'] 0 8)] 7)] 1),
  [],
  (.op o5 [(.var ['x'] 0 1), (.op o7 [(.var ['y'] 0 4), (.var ['z'] 0 6)] 5)] 2)⟩
def p5_10 : RuleParts := ⟨(.op o4 [(.var ['x'] 0 0), (.op o6 [(.op o12 [(.var ['y'] 0 4)] 3), (.var ['z'] 0 6)] 5)] 1),
  [],
  (.op o5 [(.var ['x'] 0 1), (.op o6 [(.var ['y'] 0 3), (.var ['z'] 0 5)] 4)] 2)⟩
def p5_11 : RuleParts := ⟨(.op o6 [(.var ['z'] 0 0), (.op o4 [(.var ['x'] 0 3), (.var ['y'] 0 5)] 4)] 1),
  [(.op o60 [(.op o58 [(.var ['z'] 0 2)] 0), (.op o62 [] 7)] 5)],
  (.op o4 [(.op o6 [(.var ['z'] 0 1), (.var ['x'] 0 3)] 2), (.op o6 [(.var ['z'] 0 7), (.var ['y'] 0 9)] 8)] 5)⟩
def p5_12 : RuleParts := ⟨(.op o12 [(.op o12 [(.var ['x'] 0 2)] 1)] 0),
  [],
  (.var ['x'] 0 1)⟩
def p5_13 : RuleParts := ⟨(.op o6 [(.op o12 [(.const 1 2)] 1), (.var ['x'] 0 5)] 4),
  [],
  (.op o12 [(.var ['x'] 0 2)] 1)⟩
def p5_14 : RuleParts := ⟨(.op o4 [(.var ['x'] 0 0), (.op o12 [(.var ['y'] 0 4)] 3)] 1),
  [],
  (.op o5 [(.var ['x'] 0 1), (.var ['y'] 0 3)] 2)⟩
def p5_15 : RuleParts := ⟨(.op o4 [(.op o12 [(.var ['x'] 0 2)] 1), (.var ['y'] 0 5)] 4),
  [],
  (.op o5 [(.var ['y'] 0 1), (.var ['x'] 0 3)] 2)⟩
def p5_16 : RuleParts := ⟨(.op o12 [(.op o6 [(.var ['x'] 0 2), (.var ['y'] 0 4)] 3)] 0),
  [],
  (.op o6 [(.op o12 [(.var ['x'] 0 3)] 2), (.var ['y'] 0 6)] 5)⟩
def p5_17 : RuleParts := ⟨(.op o16 [(.var ['x'] 0 2), (.const 2 5)] 0),
  [],
  (.op o17 [(.var ['x'] 0 3)] 1)⟩
def p5_18 : RuleParts := ⟨(.op o8 [(.var ['x'] 0 0), (.op o7 [(.const 1 3), (.var ['y'] 0 5)] 4)] 1),
  [],
  (.op o16 [(.var ['x'] 0 3), (.var ['y'] 0 6)] 1)⟩
def p5_19 : RuleParts := ⟨(.op o4 [(.var ['x'] 0 0), (.op o4 [(.var ['y'] 0 3), (.var ['z'] 0 5)] 4)] 1),
  [],
  (.op o4 [(.op o4 [(.var ['x'] 0 1), (.var ['y'] 0 3)] 2), (.var ['z'] 0 5)] 4)⟩
def p5_20 : RuleParts := ⟨(.op o6 [(.var ['x'] 0 0), (.op o6 [(.var ['y'] 0 3), (.var ['z'] 0 5)] 4)] 1),
  [],
  (.op o6 [(.op o6 [(.var ['x'] 0 1), (.var ['y'] 0 3)] 2), (.var ['z'] 0 5)] 4)⟩
def p5_21 : RuleParts := ⟨(.op o7 [(.op o22 [(.var ['x'] 0 2)] 0), (.op o23 [(.var ['x'] 0 7)] 5)] 4),
  [],
  (.op o24 [(.var ['x'] 0 3)] 1)⟩
def p5_22 : RuleParts := ⟨(.op o7 [(.var ['x'] 0 0), (.const 0 2)] 1),
  [(.op o72 [(.op o59 [(.var ['x'] 0 3), (.const 1 5)] 1)] 0)],
  (.op o7 [(.const 1 1), (.const 0 3)] 2)⟩
def p6_0 : RuleParts := ⟨(.op o6 [(.var ['x'] 0 0), (.op o12 [(.var ['y'] 0 4)] 3)] 1),
  [(.op o61 [(.op o58 [(.var ['x'] 0 2)] 0), (.op o62 [] 7)] 5), (.op o60 [(.op o58 [(.var ['y'] 0 2)] 0), (.op o62 [] 7)] 5)],
  (.op o6 [(.op o12 [(.var ['y'] 0 2)] 1), (.var ['x'] 0 4)] 3)⟩

def parts0 : List RuleParts := [p0_0, p0_1, p0_2, p0_3, p0_4, p0_5, p0_6, p0_7, p0_8, p0_9, p0_10, p0_11, p0_12, p0_13]
def parts1 : List RuleParts := [p1_0, p1_1, p1_2, p1_3, p1_4, p1_5, p1_6, p1_7, p1_8, p1_9, p1_10, p1_11, p1_12, p1_13, p1_14, p1_15, p1_16, p1_17, p1_18, p1_19, p1_20, p1_21, p1_22]
def parts2 : List RuleParts := [p2_0, p2_1, p2_2, p2_3, p2_4, p2_5, p2_6, p2_7, p2_8, p2_9, p2_10, p2_11, p2_12]
def parts3 : List RuleParts := [p3_0, p3_1, p3_2, p3_3, p3_4, p3_5, p3_6, p3_7, p3_8, p3_9, p3_10, p3_11, p3_12, p3_13, p3_14, p3_15, p3_16, p3_17, p3_18, p3_19, p3_20, p3_21, p3_22, p3_23, p3_24, p3_25, p3_26, p3_27, p3_28, p3_29, p3_30, p3_31, p3_32, p3_33, p3_34, p3_35, p3_36, p3_37, p3_38, p3_39, p3_40, p3_41, p3_42, p3_43, p3_44, p3_45, p3_46, p3_47, p3_48, p3_49, p3_50]
def parts4 : List RuleParts := [p4_0, p4_1, p4_2, p4_3, p4_4, p4_5, p4_6, p4_7, p4_8, p4_9]
def parts5 : List RuleParts := [p5_0, p5_1, p5_2, p5_3, p5_4, p5_5, p5_6, p5_7, p5_8, p5_9, p5_10, p5_11, p5_12, p5_13, p5_14, p5_15, p5_16, p5_17, p5_18, p5_19, p5_20, p5_21, p5_22]
def parts6 : List RuleParts := [p6_0]

/-- The shipped rulesets. -/
def partsOf : Nat → List RuleParts
  | 0 => parts0
  | 1 => parts1
  | 2 => parts2
  | 3 => parts3
  | 4 => parts4
  | 5 => parts5
  | 6 => parts6
  | _ => []

/-- The shipped rules for numbers in `V`. -/
def rulesAt {V : Type} (f : ℚ → V) (k : Nat) : List (RewriteRule V) := (partsOf k).map (RuleParts.rule f)

end Verif.Shipped
