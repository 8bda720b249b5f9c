import Verif.Lemmas.SimplifyInv
import Verif.Lemmas.ShippedFit
import Verif.Model.Simplify

/-!
# Weights of expressions

A scale gives every expression a weight.  If all rules of a set make expressions lighter, applying them ends.
-/

namespace Verif
open TreeProps RewriteProps
variable {V ε : Type}

/-- Weights of numbers, and of operations (by the id of the operator) from those of the operands.  Variables have the
weight 2. -/
structure Scale (V : Type) where
  num : V → Nat
  op : Nat → List Nat → Nat

namespace Scale
variable (S : Scale V)

/-- The weight of an expression. -/
def weigh : Tree V → Nat
  | .const v _ => S.num v
  | .var _ _ _ => 2
  | .op o cs _ => S.op o.id (cs.attach.map fun c => weigh c.1)
termination_by t => sizeOf t
decreasing_by
  have := List.sizeOf_lt_of_mem c.2
  simp only [Tree.op.sizeOf_spec]
  omega

theorem weigh_op (o : Op) (cs : List (Tree V)) (i : Nat) : S.weigh (.op o cs i) = S.op o.id (cs.map S.weigh) := by
  rw [weigh]
  congr 1
  exact List.attach_map_val

/-- What a scale must satisfy. -/
structure Fair : Prop where
  num_pos : ∀ v, 1 ≤ S.num v
  num_le : ∀ v, S.num v ≤ 2
  low : ∀ k l, (∀ x ∈ l, 1 ≤ x) → 2 ≤ S.op k l
  mono : ∀ k pre a b post, (∀ x ∈ pre, 1 ≤ x) → (∀ x ∈ post, 1 ≤ x) → 1 ≤ a → a < b →
    S.op k (pre ++ a :: post) < S.op k (pre ++ b :: post)

variable {S}

theorem weigh_pos (h : S.Fair) (t : Tree V) : 1 ≤ S.weigh t := by
  induction t using Tree.induct with
  | hc v i => rw [weigh]; exact h.num_pos v
  | hv n x i => rw [weigh]; omega
  | ho o cs i ih =>
    rw [weigh_op]
    have := h.low o.id (cs.map S.weigh) (by simpa using ih)
    omega

theorem weigh_low (h : S.Fair) (o : Op) (cs : List (Tree V)) (i : Nat) : 2 ≤ S.weigh (.op o cs i) := by
  rw [weigh_op]
  exact h.low _ _ (by simpa using fun c _ => weigh_pos h c)

theorem all_pos (h : S.Fair) (cs : List (Tree V)) : ∀ x ∈ cs.map S.weigh, 1 ≤ x := by
  simpa using fun c _ => weigh_pos h c

/-- Replacing a part by a lighter one makes the whole lighter. -/
theorem replaced (h : S.Fair) {t t' s u : Tree V} {p : List Nat} (hr : Replaced t p s u t') (hu : S.weigh u < S.weigh s) :
    S.weigh t' < S.weigh t := by
  induction hr with
  | here => exact hu
  | child _ ih =>
    rw [weigh_op, weigh_op]
    simp only [List.map_append, List.map_cons]
    exact h.mono _ _ _ _ _ (all_pos h _) (all_pos h _) (weigh_pos h _) (ih hu)

/-- Equal expressions have the same weight. -/
theorem equal {eqV : V → V → Bool} (he : ∀ v w, eqV v w = true → S.num v = S.num w) {t u : Tree V} (h : Equal eqV t u) :
    S.weigh t = S.weigh u := by
  induction h with
  | refl => rfl
  | const h => rw [weigh, weigh]; exact he _ _ h
  | var => rw [weigh, weigh]
  | @op o p cs ds i j hl ho _ ih =>
    rw [weigh_op, weigh_op, ho]
    congr 1
    refine List.ext_getElem (by simpa using hl) ?_
    intro k h1 h2
    simp only [List.getElem_map]
    exact ih k (by simpa using h1)

theorem op_le (h : S.Fair) (k : Nat) {as bs : List Nat} (hab : List.Forall₂ (fun a b => 1 ≤ a ∧ a ≤ b) as bs) :
    S.op k as ≤ S.op k bs := by
  have key : ∀ pre : List Nat, (∀ x ∈ pre, 1 ≤ x) → S.op k (pre ++ as) ≤ S.op k (pre ++ bs) := by
    induction hab with
    | nil => intro pre _; rfl
    | @cons a b as bs h1 h2 ih =>
      intro pre hp
      have e1 : S.op k (pre ++ a :: as) ≤ S.op k (pre ++ a :: bs) := by
        have := ih (pre ++ [a]) (by
          intro x hx
          rcases List.mem_append.1 hx with hx | hx
          · exact hp x hx
          · rw [List.mem_singleton.1 hx]; exact h1.1)
        simpa using this
      refine e1.trans ?_
      rcases Nat.lt_or_eq_of_le h1.2 with hlt | heq
      · refine (h.mono k pre a b bs hp ?_ h1.1 hlt).le
        intro x hx
        clear ih e1
        induction h2 with
        | nil => cases hx
        | cons g _ ih =>
          rcases List.mem_cons.1 hx with rfl | hx
          · exact g.1.trans g.2
          · exact ih hx
      · rw [heq]
  exact key [] (by simp)

/-- Folding constants makes nothing heavier. -/
theorem reduceConst_le (h : S.Fair) (arith : Op → List V → Except ε V) (ve : ε) (t : Tree V) : ∀ p,
    S.weigh (reduceConst arith ve t p).1 ≤ S.weigh t := by
  refine Tree.rec
    (motive_1 := fun t => ∀ p, S.weigh (reduceConst arith ve t p).1 ≤ S.weigh t)
    (motive_2 := fun l => ∀ p k, List.Forall₂ (fun a b => 1 ≤ a ∧ a ≤ b) ((reduceConsts arith ve l p k).1.map S.weigh) (l.map S.weigh))
    ?_ ?_ ?_ ?_ ?_ t
  · intro v i p
    simp [reduceConst, countVars, treeReduce]
  · intro n x i p
    simp [reduceConst, countVars]
  · intro o cs i ih p
    rw [reduceConst]
    split
    · split
      · exact Nat.le_refl _
      · rename_i r _
        rw [weigh]
        exact (h.num_le r).trans (weigh_low h o cs i)
    · rw [weigh_op, weigh_op]
      exact op_le h _ (ih p 0)
  · intro p k
    exact .nil
  · intro c cs h1 h2 p k
    rw [reduceConsts]
    have g1 := h1 (p ++ [k])
    generalize reduceConst arith ve c (p ++ [k]) = r at g1
    obtain ⟨c', e⟩ := r
    cases e with
    | some e =>
      refine .cons ⟨weigh_pos h _, g1⟩ (List.forall₂_same.2 ?_)
      intro x hx
      exact ⟨all_pos h _ x hx, Nat.le_refl _⟩
    | none => exact .cons ⟨weigh_pos h _, g1⟩ (h2 p (k + 1))

/-- The weights of what is put in for a pattern, if `ρ` are the weights of what is put in for its variables. -/
def weights (S : Scale V) (ρ : Str → List Nat) : Tree V → List Nat
  | .const v _ => [S.num v]
  | .var n _ _ => ρ n
  | .op o cs _ => [S.op o.id (cs.attach.flatMap fun c => weights S ρ c.1)]
termination_by t => sizeOf t
decreasing_by
  have := List.sizeOf_lt_of_mem c.2
  simp only [Tree.op.sizeOf_spec]
  omega

theorem weights_const (S : Scale V) (ρ : Str → List Nat) (v : V) (i : Nat) : S.weights ρ (.const v i) = [S.num v] := by
  rw [weights]

theorem weights_var (S : Scale V) (ρ : Str → List Nat) (n : Str) (x i : Nat) : S.weights ρ (.var n x i) = ρ n := by
  rw [weights]

theorem weights_op (S : Scale V) (ρ : Str → List Nat) (o : Op) (cs : List (Tree V)) (i : Nat) :
    S.weights ρ (.op o cs i) = [S.op o.id (cs.flatMap (S.weights ρ))] := by
  rw [weights, List.flatMap_def, List.flatMap_def, List.attach_map_val]

theorem inst (S : Scale V) {σ : Str → Option (List (Tree V))} {g : Nat → Nat} {ρ : Str → List Nat} {t : Tree V} {ts : List (Tree V)}
    (h : Inst σ g t ts) : (∀ n ∈ t.names, ∀ l, σ n = some l → ρ n = l.map S.weigh) → ts.map S.weigh = S.weights ρ t := by
  induction h with
  | const => intro _; rw [weights_const]; simp [weigh]
  | @var n x i l hl =>
    intro hρ
    rw [weights_var]
    exact (hρ n (by simp [Tree.names]) l hl).symm
  | @op o cs i parts hl _ ih =>
    intro hρ
    rw [weights_op]
    simp only [List.map_cons, List.map_nil, weigh_op]
    congr 2
    rw [List.map_flatten, List.flatMap_def]
    congr 1
    refine List.ext_getElem (by simpa using hl.symm) ?_
    intro k h1 h2
    simp only [List.getElem_map]
    refine ih k (by simpa using h2) fun n hn => hρ n ?_
    simp only [Tree.names]
    exact namesList_mem.2 ⟨_, List.getElem_mem _, hn⟩

/-- Weights for the variables of rules: one for each plain variable, any number for list variables. -/
structure Env (ρ : Str → List Nat) : Prop where
  pos : ∀ n, ∀ x ∈ ρ n, 1 ≤ x
  one : ∀ n, ¬ ListName n → ∃ a, ρ n = [a]

/-- The right side of a rule is lighter than the left side.  `P` is what is known about the weights of its variables. -/
def Drops (S : Scale V) (P : (Str → List Nat) → Prop) (before after : Tree V) : Prop :=
  ∀ ρ, Env ρ → P ρ → ∀ a b, S.weights ρ before = [a] → S.weights ρ after = [b] → b < a

/-- Applying such a rule makes an expression lighter. -/
theorem drops (h : S.Fair) {eqV : V → V → Bool} (he : ∀ v w, eqV v w = true → S.num v = S.num w) {checker : Tree V → Bool}
    {before after : Tree V} {cs : List (Tree V)} {rule : RewriteRule V} (hr : Accepted before cs after rule)
    {P : (Str → List Nat) → Prop}
    (hP : ∀ σ ρ, (∀ n ∈ before.varNames, ∀ l, σ n = some l → ρ n = l.map S.weigh) →
      ((∀ c ∈ cs, ∀ n ∈ c.varNames, n ∈ before.varNames) → before.varNames ≠ [] →
        ∀ c ∈ cs, ∃ c', Inst σ (fun i => i) c [c'] ∧ checker c' = true) → P ρ)
    (hd : S.Drops P before after) {t t' : Tree V} (ha : applyRule eqV checker rule t = .ok (some t')) :
    S.weigh t' < S.weigh t := by
  obtain ⟨σ, p, s, l, w, h1, h2, h3, h4, h5, h6⟩ := C29_instance hr eqV checker t t' ha
  obtain ⟨-, -, -, hsub⟩ := hr.spec
  refine replaced h h1 ?_
  rw [← equal he h3]
  classical
  let ρ : Str → List Nat := fun n => if n ∈ before.varNames then ((σ n).getD []).map S.weigh else [1]
  have hρ : ∀ n ∈ before.varNames, ∀ l, σ n = some l → ρ n = l.map S.weigh := by
    intro n hn l hl
    simp only [ρ, if_pos hn, hl, Option.getD_some]
  have henv : Env ρ := by
    constructor
    · intro n x hx
      simp only [ρ] at hx
      split at hx
      · exact all_pos h _ x hx
      · rw [List.mem_singleton.1 hx]
    · intro n hn
      simp only [ρ]
      split
      · rename_i hm
        obtain ⟨x, hx⟩ := h4 n hm hn
        exact ⟨S.weigh x, by rw [hx]; rfl⟩
      · exact ⟨1, rfl⟩
  have g1 := S.inst h2 (ρ := ρ) fun n hn => hρ n (by rw [varNames_eq]; exact hn)
  have g2 := S.inst h6 (ρ := ρ) fun n hn => hρ n (by rw [varNames_eq]; exact hsub n hn)
  exact hd ρ henv (hP σ ρ hρ h5) _ _ g1.symm g2.symm

/-- If all rules make expressions lighter, `apply_simplification` ends after at most as many rounds as the weight of the
expression says. -/
theorem loop_ends (h : S.Fair) {D : Doubles V} {checker : Tree V → Bool} {arith : Op → List V → Except ε V} {ve : ε}
    {rules : List (RewriteRule V)}
    (hr : ∀ r ∈ rules, ∀ t t', applyRule D.eq checker r t = .ok (some t') → S.weigh t' < S.weigh t) :
    ∀ {fuel : Nat} {t : Tree V}, S.weigh t < fuel → simplifyLoop D checker arith ve rules fuel t ≠ .ok none := by
  intro fuel
  induction fuel with
  | zero => intro t ht; omega
  | succ fuel ih =>
    intro t ht hl
    simp only [simplifyLoop] at hl
    obtain ⟨r, hr', hl⟩ := Res.bind_eq_ok.1 hl
    obtain ⟨w, n, rfl, h1, h2, h3⟩ := C31_partial D.eq checker rules 1 1 (by omega) (by omega) t r hr'
    cases n with
    | zero => cases hl
    | succ n =>
      refine ih ?_ hl
      refine Nat.lt_of_le_of_lt (reduceConst_le h arith ve w []) ?_
      have hs : ∀ {n t w}, Steps D.eq checker rules n t w → S.weigh w ≤ S.weigh t ∧ (0 < n → S.weigh w < S.weigh t) := by
        intro n t w hs
        induction hs with
        | zero => exact ⟨Nat.le_refl _, fun h => by omega⟩
        | succ g _ ih =>
          obtain ⟨pre, r, post, e, -, g2⟩ := g
          have := hr r (by rw [e]; simp) _ _ g2
          exact ⟨by omega, fun _ => by omega⟩
      have := (hs h2).2 (by omega)
      omega

end Scale
end Verif
