import Verif.Spec.Trees

/-!
# Instances of patterns, rewriting

Stated without the functions of the program.
-/

namespace Verif
variable {V ε : Type}

/-- Names of list variables start with a bracket. -/
def ListName (n : Str) : Prop := n.head? = some '['

/-- `Inst σ g t ts`: `ts` is what stands in place of `t` after all variables have been
replaced simultaneously by the lists of trees that `σ` assigns to them.  Nodes of
`t` get the token number `g` of their own. -/
inductive Inst (σ : Str → Option (List (Tree V))) (g : Nat → Nat) : Tree V → List (Tree V) → Prop where
  | const {v i} : Inst σ g (.const v i) [.const v (g i)]
  | var {n x i l} : σ n = some l → Inst σ g (.var n x i) l
  | op {o cs i} {parts : List (List (Tree V))} (hl : cs.length = parts.length) :
      (∀ k (hk : k < cs.length), Inst σ g cs[k] (parts[k]'(hl ▸ hk))) →
      Inst σ g (.op o cs i) [.op o parts.flatten (g i)]

/-- Equal for the purposes of the calculator: operators are told apart by their ids
and constants by `eqV`; a tree is always equal to itself, even if it contains NaN. -/
inductive Equal (eqV : V → V → Bool) : Tree V → Tree V → Prop where
  | refl {t} : Equal eqV t t
  | const {v w i j} : eqV v w = true → Equal eqV (.const v i) (.const w j)
  | var {n x i j} : Equal eqV (.var n x i) (.var n x j)
  | op {o p cs ds i j} (hl : cs.length = ds.length) : o.id = p.id →
      (∀ k (hk : k < cs.length), Equal eqV cs[k] (ds[k]'(hl ▸ hk))) →
      Equal eqV (.op o cs i) (.op p ds j)

/-- `Replaced t p s u t'`: `s` stands in `t` at position `p`, and `t'` is `t` with `u` in
its place. -/
inductive Replaced : Tree V → List Nat → Tree V → Tree V → Tree V → Prop where
  | here {s u} : Replaced s [] s u u
  | child {o cs ds p s c c' u i} :
      Replaced c p s u c' →
      Replaced (.op o (cs ++ c :: ds) i) (cs.length :: p) s u (.op o (cs ++ c' :: ds) i)

mutual
/-- In no parameter list is a list variable that was `seen` before the list followed
by another list variable. -/
def ListsApart (seen : List Str) : Tree V → Prop
  | .const _ _ => True
  | .var _ _ _ => True
  | .op _ cs _ => (∀ a b n x i, cs = a ++ .var n x i :: b → ListName n → n ∈ seen →
      ∀ n' x' i', Tree.var n' x' i' ∈ b → ¬ ListName n') ∧ ListsApartAll seen cs
def ListsApartAll (seen : List Str) : List (Tree V) → Prop
  | [] => True
  | c :: cs => ListsApart seen c ∧ ListsApartAll (seen ++ c.varNames) cs
end

end Verif
