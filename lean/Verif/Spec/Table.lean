import Verif.Spec.Text
import Verif.Spec.Trees
import Verif.Model.Table

/-!
# What a table is
-/

namespace Verif.TableSpec
variable {V ε ρ : Type}

/-- `x`, `x + step`, `x + step + step`, ... -/
def nth (add : V → V → V) (x step : V) : Nat → V
  | 0 => x
  | k + 1 => add (nth add x step k) step

/-- `ps` are the numbers from `x` on in steps of `step`, as far as they are inside. -/
structure Positions (add : V → V → V) (inside : V → Prop) (x step : V) (ps : List V) : Prop where
  pos : ∀ k (hk : k < ps.length), ps[k] = nth add x step k
  within : ∀ p ∈ ps, inside p
  stop : ¬ inside (nth add x step ps.length)

/-- `c` is the result of combining `a` with the numbers one after the other; `R a v b`:
`b` is the combination of `a` and `v`. -/
inductive LeftFold (R : V → V → V → Prop) : V → List V → V → Prop
  | nil (a) : LeftFold R a [] a
  | cons {a v b vs c} : R a v b → LeftFold R b vs c → LeftFold R a (v :: vs) c

/-- The value of a tree, 0 if it has none. -/
def ValueOr (L : Op → List V → Except ε V) (zero : V) (σ : Str → Option V) (t : Tree V) (v : V) : Prop :=
  Means L σ t v ∨ (∀ u, ¬ Means L σ t u) ∧ v = zero

/-- The two variables of a fold expression. -/
def xy (a v : V) : Str → Option V := fun n => if n = "x".toList then some a else if n = "y".toList then some v else none

/-- The texts are parsed (and simplified) one after the other. -/
inductive Parses (K : Client V ε ρ) : Session V ρ → List Str → Session V ρ → List (Tree V) → Prop
  | nil (s) : Parses K s [] s []
  | cons {s i s1 t is s2 ts} : arithParse K s i = .ok (s1, some t) → Parses K s1 is s2 ts → Parses K s (i :: is) s2 (t :: ts)

/-- The step in the direction from `start` to `stop`. -/
def StepTo (K : Program V ε ρ) (start stop step d : V) : Prop :=
  if (K.lt start stop = true ∧ K.lt step K.zero = true) ∨ (K.lt stop start = true ∧ K.lt K.zero step = true)
  then d = K.neg step else d = step

/-- A position is not beyond the end. -/
def Inside (K : Program V ε ρ) (stop d x : V) : Prop :=
  if K.lt K.zero d = true then K.le x stop = true else K.le stop x = true

/-- The rows of the table of `t`. -/
structure Rows (K : Program V ε ρ) (L : Op → List V → Except ε V) (t : Tree V) (start stop d : V)
    (rows : List (TableRow V)) : Prop where
  positions : Positions K.add (Inside K stop d) start d (rows.map (·.pos))
  values : ∀ row ∈ rows, ∀ v, row.value = some v ↔ Means L (fun _ => some row.pos) t v

/-- The numbers of the table: those of the rows without error. -/
def column (rows : List (TableRow V)) : List V := rows.filterMap (·.value)

/-- The command applied to the pieces of its input: the table, and the session afterwards.  `L` gives
the meaning of the operators. -/
inductive Tabulates (K : Program V ε ρ) (L : List V → Op → List V → Except ε V) (s : Session V ρ) :
    List Str → Session V ρ → TableOut V → Prop
  | plain {e a b c s' te ta tb tc start stop step d rows} :
      Parses K.toClient s [e, a, b, c] s' [te, ta, tb, tc] →
      (∀ m ∈ te.varNames, ∀ n ∈ te.varNames, m = n) →
      ta.varNames = [] → tb.varNames = [] → tc.varNames = [] →
      ValueOr (L s.hist) K.zero (fun _ => none) ta start →
      ValueOr (L s.hist) K.zero (fun _ => none) tb stop →
      ValueOr (L s.hist) K.zero (fun _ => none) tc step →
      K.eqV step K.zero = false →
      StepTo K start stop step d →
      Rows K (L s.hist) te start stop d rows →
      Tabulates K L s [e, a, b, c] s' ⟨rows, none⟩
  | fold {e a b c f i s' te ta tb tc tf ti start stop step d rows init result} :
      Parses K.toClient s [e, a, b, c, f, i] s' [te, ta, tb, tc, tf, ti] →
      (∀ m ∈ te.varNames, ∀ n ∈ te.varNames, m = n) →
      ta.varNames = [] → tb.varNames = [] → tc.varNames = [] →
      ValueOr (L s.hist) K.zero (fun _ => none) ta start →
      ValueOr (L s.hist) K.zero (fun _ => none) tb stop →
      ValueOr (L s.hist) K.zero (fun _ => none) tc step →
      K.eqV step K.zero = false →
      StepTo K start stop step d →
      Rows K (L s.hist) te start stop d rows →
      (∀ n ∈ tf.varNames, n = "x".toList ∨ n = "y".toList) → ti.varNames = [] →
      ValueOr (L s.hist) K.zero (fun _ => none) ti init →
      LeftFold (fun x y r => ValueOr (L s.hist) K.zero (xy x y) tf r) init (column rows) result →
      Tabulates K L s [e, a, b, c, f, i] { s' with hist := s.hist ++ [result] } ⟨rows, some result⟩

/-- `tree_reduce` computes with the operators of `L` and nothing else. -/
def Computes (K : Program V ε ρ) (L : List V → Op → List V → Except ε V) (ve : ε) : Prop :=
  ∀ w hist t, K.reduce w hist t = .ok (w, match treeReduce (L hist) ve t [] with
    | .ok v => .ok v
    | .error e => .error e.1)

end Verif.TableSpec
