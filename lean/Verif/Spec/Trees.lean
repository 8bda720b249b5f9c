import Verif.Model.Tree

/-!
# What trees are and mean

Positions, occurrences of variables, substitution, values; stated without the
functions of the program.
-/

namespace Verif
variable {V ε : Type}

mutual
/-- All nodes with their positions, parents before children, left to right. -/
def Tree.preorder (p : List Nat) : Tree V → List (List Nat × Tree V)
  | .const v i => [(p, .const v i)]
  | .var n x i => [(p, .var n x i)]
  | .op o cs i => (p, .op o cs i) :: Tree.preorders p 0 cs
def Tree.preorders (p : List Nat) (k : Nat) : List (Tree V) → List (List Nat × Tree V)
  | [] => []
  | c :: cs => Tree.preorder (p ++ [k]) c ++ Tree.preorders p (k + 1) cs
end

mutual
/-- All nodes with their positions, children before parents, left to right: the
order of evaluation. -/
def Tree.postorder (p : List Nat) : Tree V → List (List Nat × Tree V)
  | .const v i => [(p, .const v i)]
  | .var n x i => [(p, .var n x i)]
  | .op o cs i => Tree.postorders p 0 cs ++ [(p, .op o cs i)]
def Tree.postorders (p : List Nat) (k : Nat) : List (Tree V) → List (List Nat × Tree V)
  | [] => []
  | c :: cs => Tree.postorder (p ++ [k]) c ++ Tree.postorders p (k + 1) cs
end

/-- The variable `name` stands at a node. -/
def Tree.isVar (name : Str) : Tree V → Bool
  | .var n _ _ => n == name
  | _ => false

/-- Names of the variable nodes, left to right. -/
def Tree.varNames (t : Tree V) : List Str :=
  (t.preorder []).filterMap fun x => match x.2 with
    | .var n _ _ => some n
    | _ => none

/-- Same expression: same form, operators, variables and constants up to the
equality `eqV`; token numbers do not matter. -/
inductive SameExpr (eqV : V → V → Bool) : Tree V → Tree V → Prop where
  | const {v w i j} : eqV v w = true → SameExpr eqV (.const v i) (.const w j)
  | var {n x i j} : SameExpr eqV (.var n x i) (.var n x j)
  | op {o cs ds i j} (hl : cs.length = ds.length) :
      (∀ k (hk : k < cs.length), SameExpr eqV cs[k] (ds[k]'(hl ▸ hk))) →
      SameExpr eqV (.op o cs i) (.op o ds j)

/-- `Subst σ t u`: `u` is `t` with every variable node whose name `σ` maps replaced. -/
inductive Subst (σ : Str → Option (Tree V)) : Tree V → Tree V → Prop where
  | const {v i} : Subst σ (.const v i) (.const v i)
  | hit {n x i r} : σ n = some r → Subst σ (.var n x i) r
  | miss {n x i} : σ n = none → Subst σ (.var n x i) (.var n x i)
  | op {o cs ds i} (hl : cs.length = ds.length) :
      (∀ k (hk : k < cs.length), Subst σ cs[k] (ds[k]'(hl ▸ hk))) →
      Subst σ (.op o cs i) (.op o ds i)

/-- `Means L σ t v`: evaluating `t` with operators interpreted by `L` and variables
by `σ` gives `v`. -/
inductive Means (L : Op → List V → Except ε V) (σ : Str → Option V) : Tree V → V → Prop where
  | const {v i} : Means L σ (.const v i) v
  | var {n x i v} : σ n = some v → Means L σ (.var n x i) v
  | op {o cs vs i v} (hl : cs.length = vs.length) :
      (∀ k (hk : k < cs.length), Means L σ cs[k] (vs[k]'(hl ▸ hk))) → L o vs = .ok v →
      Means L σ (.op o cs i) v

/-- The node itself is to blame for the error `e`: it is a variable without value
or all its operands have values but the operator rejects them. -/
inductive Blame (L : Op → List V → Except ε V) (varErr : ε) : Tree V → ε → Prop where
  | var {n x i} : Blame L varErr (.var n x i) varErr
  | op {o cs vs i e} (hl : cs.length = vs.length) :
      (∀ k (hk : k < cs.length), Means L (fun _ => none) cs[k] (vs[k]'(hl ▸ hk))) →
      L o vs = .error e → Blame L varErr (.op o cs i) e

/-- No variable occurs. -/
inductive Ground : Tree V → Prop where
  | const {v i} : Ground (.const v i)
  | op {o cs i} : (∀ c ∈ cs, Ground c) → Ground (.op o cs i)

end Verif
