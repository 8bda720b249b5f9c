import Verif.Model.Simplification

/-!
# Meaning of the constraints of rewrite rules
-/

namespace Verif
variable {V ε : Type}

/-- The comparison or connective that an infix operator of the constraint language
stands for. -/
def comparison (D : Doubles V) (n : Str) : Option (V → V → Bool) :=
  if n = "==".toList then some D.eq
  else if n = "!=".toList then some fun a b => !D.eq a b
  else if n = ">".toList then some fun a b => D.lt b a
  else if n = "<".toList then some D.lt
  else if n = ">=".toList then some fun a b => D.le b a
  else if n = "<=".toList then some D.le
  else if n = "||".toList then some fun a b => !D.eq a (D.ofNat 0) || !D.eq b (D.ofNat 0)
  else none

/-- The named values of the constraint language. -/
def named (D : Doubles V) (n : Str) : Option V :=
  if n = "FALSE".toList then some (D.ofNat 0)
  else if n = "TRUE".toList then some (D.ofNat 1)
  else if n = "CONST".toList then some (D.ofNat 2)
  else if n = "VAR".toList then some (D.ofNat 3)
  else if n = "OP".toList then some (D.ofNat 4)
  else none

/-- `CondVal D arith isArith t v`: the constraint `t` has the value `v`.  `isArith`
tells the operators of arithmetic, which are interpreted by `arith`. -/
inductive CondVal (D : Doubles V) (arith : Op → List V → Except ε V) (isArith : Op → Prop) :
    Tree V → V → Prop where
  | const {v i} : CondVal D arith isArith (.const v i) v
  | type {o t i v} : o.name = "type".toList → v = (match t with
      | .const _ _ => D.ofNat 2
      | .var _ _ _ => D.ofNat 3
      | .op _ _ _ => D.ofNat 4) → CondVal D arith isArith (.op o [t] i) v
  | equal {o a b i v} : o.name = "equal".toList → v = D.ofNat (if treeEquals D.eq a b then 1 else 0) →
      CondVal D arith isArith (.op o [a, b] i) v
  | named {o i v} : named D o.name = some v → CondVal D arith isArith (.op o [] i) v
  | infix {o a b i v w f x} : comparison D o.name = some f →
      CondVal D arith isArith a v → CondVal D arith isArith b w → x = D.ofNat (if f v w then 1 else 0) →
      CondVal D arith isArith (.op o [a, b] i) x
  | not {o a i v x} : o.name = "!".toList → o.placement = .prefix → CondVal D arith isArith a v →
      x = D.ofNat (if D.eq v (D.ofNat 0) then 1 else 0) → CondVal D arith isArith (.op o [a] i) x
  | arith {o cs vs i v} (hl : cs.length = vs.length) : isArith o →
      (∀ k (hk : k < cs.length), CondVal D arith isArith cs[k] (vs[k]'(hl ▸ hk))) → arith o vs = .ok v →
      CondVal D arith isArith (.op o cs i) v

/-- `Collapsed isOp f t u`: working upwards from the leaves, every node of `t` with an
operator satisfying `isOp` is replaced in `u` by the constant that `f` gives for what
has become of its children. -/
inductive Collapsed (isOp : Op → Bool) (f : List (Tree V) → Res V) : Tree V → Tree V → Prop where
  | const {v i} : Collapsed isOp f (.const v i) (.const v i)
  | var {n x i} : Collapsed isOp f (.var n x i) (.var n x i)
  | keep {o cs ds i} (hl : cs.length = ds.length) : isOp o = false →
      (∀ k (hk : k < cs.length), Collapsed isOp f cs[k] (ds[k]'(hl ▸ hk))) →
      Collapsed isOp f (.op o cs i) (.op o ds i)
  | hit {o cs ds i v} (hl : cs.length = ds.length) : isOp o = true →
      (∀ k (hk : k < cs.length), Collapsed isOp f cs[k] (ds[k]'(hl ▸ hk))) → f ds = .ok v →
      Collapsed isOp f (.op o cs i) (.const v i)

end Verif
