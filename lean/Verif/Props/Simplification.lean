import Verif.Lemmas.Simplification
import Verif.Props.Rewrite

/-!
# C56, C61, C62: constraints, negative constants, application of a ruleset
-/

namespace Verif.SimplProps
open Verif TreeProps RewriteProps
variable {V ε : Type}

/-! ## C61 -/

/-- A constraint, written with the operators of the context `c`, whose evaluation is
defined: operators have as many operands as they need, `type` and `equal` are
applied to expressions without these two, and `count` occurs only in such. -/
inductive Constraint (c : Ctx) : Tree V → Prop where
  | const {v i} : Constraint c (.const v i)
  | var {n x i} : Constraint c (.var n x i)
  | type {o t i} : o ∈ c.ops.map (·.2) → o.name = "type".toList →
      AllOps (fun p => p.name ≠ "type".toList ∧ p.name ≠ "equal".toList) t → Constraint c (.op o [t] i)
  | equal {o a b i} : o ∈ c.ops.map (·.2) → o.name = "equal".toList →
      AllOps (fun p => p.name ≠ "type".toList ∧ p.name ≠ "equal".toList) a →
      AllOps (fun p => p.name ≠ "type".toList ∧ p.name ≠ "equal".toList) b → Constraint c (.op o [a, b] i)
  | op {o cs i} : o ∈ c.ops.map (·.2) → o.name ∉ ["type", "equal", "count"].map String.toList →
      (o.arity = .dyn ∨ o.arity = .fixed cs.length) → (∀ d ∈ cs, Constraint c d) → Constraint c (.op o cs i)

/-- **C61.** The propositional context is built without a defect, and its checker
accepts a constraint exactly if it has a value other than 0 according to the
meaning of its operators (by name, `CondVal`): comparisons of values, `type` asking
for the kind of an expression, `equal` for equality of expressions. -/
theorem C61_checker (D : Doubles V) (arith : Op → List V → Except ε V) (ve : ε) :
    ∃ c, propCtx = .ok c ∧ ∀ t, Constraint c t →
      ∃ b, propChecker D arith ve t = .ok b ∧
        (b = true ↔ ∃ v, CondVal D arith (fun o => ({ o with id := 0 } : Op) ∈ arithOps) t v ∧
          D.eq v (D.ofNat 0) = false) := by
  obtain ⟨c, hc, hops, -⟩ := propCtx_ok
  refine ⟨c, hc, fun t ht => ?_⟩
  have ht' : IsCond t := by
    induction ht with
    | const => exact .const
    | var => exact .var
    | type h1 h2 h3 => exact .type (hops ▸ h1) h2 h3
    | equal h1 h2 h3 h4 => exact .equal (hops ▸ h1) h2 h3 h4
    | op h1 h2 h3 _ ih => exact .op (hops ▸ h1) h2 h3 ih
  obtain ⟨t1, t2, h1, h2, h3, h4⟩ := cond_key D arith ve ht'
  unfold propChecker
  simp only [h1, h2, Res.bind_ok]
  cases hr : treeReduce (propEvaluate D arith) (.listener ve) t2 [] with
  | ok v =>
    have hm := (C24_value _ _ _ _).1 hr
    refine ⟨_, rfl, ?_⟩
    constructor
    · intro h
      exact ⟨v, (h3 v).1 hm, by simpa using h⟩
    · rintro ⟨w, hw, h⟩
      rw [Means.unique _ hm ((h3 w).2 hw), h]
      rfl
  | error eq =>
    obtain ⟨e, q⟩ := eq
    obtain ⟨e', rfl⟩ := h4 [] e q hr
    refine ⟨false, rfl, ?_⟩
    constructor
    · intro h; cases h
    · rintro ⟨w, hw, -⟩
      rw [(C24_value _ _ _ _).2 ((h3 w).2 hw)] at hr
      cases hr

theorem reduceOpsList_iff {isOp : Op → Bool} {f : List (Tree V) → Res V} {l l' : List (Tree V)} :
    reduceOpsList isOp f l = .ok l' ↔ List.Forall₂ (fun t t' => reduceOps isOp f t = .ok t') l l' := by
  refine ⟨fun h => ?_, reduceOpsList_eq⟩
  induction l generalizing l' with
  | nil => cases h; exact .nil
  | cons c l ih =>
    simp only [reduceOpsList] at h
    obtain ⟨c', h1, h⟩ := Res.bind_eq_ok.1 h
    obtain ⟨l1, h2, h⟩ := Res.bind_eq_ok.1 h
    cases h
    exact .cons h1 (ih h2)

/-- **C61.** `tree_reduce_ops`, by which `type` and `equal` are evaluated, works upwards
from the leaves, so that nested uses are possible. -/
theorem C61_reduce_ops (isOp : Op → Bool) (f : List (Tree V) → Res V) (t u : Tree V) :
    reduceOps isOp f t = .ok u ↔ Collapsed isOp f t u := by
  induction t using Tree.induct generalizing u with
  | hc => exact ⟨fun h => by cases h; exact .const, fun h => by cases h; rfl⟩
  | hv => exact ⟨fun h => by cases h; exact .var, fun h => by cases h; rfl⟩
  | ho o cs i ih =>
    have hl : ∀ ds : List (Tree V), reduceOpsList isOp f cs = .ok ds ↔
        ∃ hl : cs.length = ds.length, ∀ k (hk : k < cs.length), Collapsed isOp f cs[k] (ds[k]'(hl ▸ hk)) := by
      intro ds
      rw [reduceOpsList_iff, forall2_iff]
      exact exists_congr fun hl => forall_congr' fun k => forall_congr' fun hk =>
        ih _ (List.getElem_mem hk) _
    simp only [reduceOps]
    rw [Res.bind_eq_ok]
    constructor
    · rintro ⟨ds, h1, h2⟩
      obtain ⟨hle, h1⟩ := (hl ds).1 h1
      split at h2
      · rename_i ho
        obtain ⟨v, h3, h4⟩ := Res.bind_eq_ok.1 h2
        cases h4
        exact .hit hle ho h1 h3
      · rename_i ho
        cases h2
        exact .keep hle (by simpa using ho) h1
    · intro h
      cases h with
      | keep hle ho h => exact ⟨_, (hl _).2 ⟨hle, h⟩, by rw [if_neg (by simp [ho])]; rfl⟩
      | hit hle ho h hv => exact ⟨_, (hl _).2 ⟨hle, h⟩, by rw [if_pos ho, hv]; rfl⟩

/-- Natural numbers as constants, for examples. -/
def natD : Doubles Nat := ⟨fun n => n, (· == ·), fun a b => decide (a < b), fun a b => decide (a ≤ b), fun n => n⟩

/-- The operator of the propositional context with this name. -/
def pop (s : String) (pl : Placement) : Op :=
  (propBuiltin.find? fun o => decide (o.name = s.toList ∧ o.placement = pl)).getD typeOp

/-- `type(7) == CONST` holds, `type(x) == CONST` does not, and `equal(x, 1) || !equal(x, 2)`
does; `x > 1` does not, for `x` has no value. -/
example : propChecker natD (fun _ _ => .error ()) ()
    (.op (pop "==" .infix) [.op typeOp [.const 7 0] 0, .op (pop "CONST" .function) [] 0] 0) = .ok true := by rfl
example : propChecker natD (fun _ _ => .error ()) ()
    (.op (pop "==" .infix) [.op typeOp [.var "x".toList 0 0] 0, .op (pop "CONST" .function) [] 0] 0)
      = .ok false := by rfl
example : propChecker natD (fun _ _ => .error ()) ()
    (.op (pop "||" .infix) [.op equalOp [.var "x".toList 0 0, .const 1 0] 0,
      .op (pop "!" .prefix) [.op equalOp [.var "x".toList 0 0, .const 2 0] 0] 0] 0) = .ok true := by rfl
example : propChecker natD (fun _ _ => .error ()) ()
    (.op (pop ">" .infix) [.var "x".toList 0 0, .const 1 0] 0) = .ok false := by rfl

/-- `type(type(x))` is the type of a constant. -/
example : reduceOps (· == typeOp) (typeEval natD) (.op typeOp [.op typeOp [.var "x".toList 0 0] 0] 0)
    = .ok (.const 2 0) := by rfl

/-- The hypothesis holds of `type(x) != OP`. -/
example : ∃ c, propCtx = .ok c ∧ Constraint c
    (.op (pop "!=" .infix) [.op typeOp [.var "x".toList 0 0 (V := Nat)] 0, .op (pop "OP" .function) [] 0] 0) := by
  obtain ⟨c, hc, hops, -⟩ := propCtx_ok
  refine ⟨c, hc, .op (by rw [hops]; decide +kernel) (by decide +kernel) (by decide +kernel) ?_⟩
  intro d hd
  simp only [List.mem_cons, List.not_mem_nil, or_false] at hd
  rcases hd with rfl | rfl
  · exact .type (by rw [hops]; decide +kernel) (by decide +kernel) .var
  · exact .op (by rw [hops]; decide +kernel) (by decide +kernel) (by decide +kernel) (by simp)

/-- A constraint with `count` outside of `type` and `equal` ends the program. -/
theorem C61_count_witness : propChecker natD (fun _ _ => .error ()) ()
    (.op (pop "==" .infix) [.op (pop "count" .function) [] 0, .const 0 0] 0) = .defect := by rfl

/-! ## C56 -/

theorem replaceNegConstsList_eq (D : Doubles V) (l : List (Tree V)) :
    replaceNegConstsList D l = l.map (replaceNegConsts D) := by
  induction l with
  | nil => rfl
  | cons c l ih => simp [replaceNegConstsList, ih]

/-- **C56.** After `replace_negative_consts` no negative constant is left. -/
theorem C56_nonnegative (D : Doubles V) (habs : ∀ v, D.lt v (D.ofNat 0) = true →
    D.lt (D.fabs v) (D.ofNat 0) = false) (t : Tree V) :
    AllConsts (fun v => D.lt v (D.ofNat 0) = false) (replaceNegConsts D t) := by
  induction t using Tree.induct with
  | hc v i =>
    simp only [replaceNegConsts]
    split
    · rename_i h
      refine .op ?_
      simp only [List.mem_singleton, forall_eq]
      exact .const (habs v h)
    · rename_i h
      exact .const (by simpa using h)
  | hv => exact .var
  | ho o cs i ih =>
    simp only [replaceNegConsts, replaceNegConstsList_eq]
    refine .op ?_
    simp only [List.mem_map, forall_exists_index, and_imp, forall_apply_eq_imp_iff₂]
    exact ih

/-- **C56.** It does not change the value, provided the operator it inserts (the prefix
minus of the context) negates: minus the absolute value of a negative number is the
number. -/
theorem C56_value (D : Doubles V) (L : Op → List V → Except ε V) (o : Op)
    (ho : ∃ c a, arithCtx = .ok c ∧ c.lookup "-".toList .prefix = .ok (some (a, o)))
    (hneg : ∀ v, D.lt v (D.ofNat 0) = true → L o [D.fabs v] = .ok v) (t : Tree V) (env : Str → Option V)
    (x : V) : Means L env (replaceNegConsts D t) x ↔ Means L env t x := by
  have hno : o = negOp := by
    obtain ⟨c, a, h1, h2⟩ := ho
    have key : (match arithCtx with
      | .ok c => match c.lookup "-".toList .prefix with
        | .ok (some (_, o)) => decide (o = negOp)
        | _ => false
      | _ => false) = true := by decide +kernel
    rw [h1] at key
    simp only [h2, decide_eq_true_eq] at key
    exact key
  subst hno
  induction t using Tree.induct generalizing x with
  | hc v i =>
    simp only [replaceNegConsts]
    split
    · rename_i h
      rw [Means.op_iff]
      constructor
      · rintro ⟨vs, h1, h2⟩
        rcases h1 with _ | ⟨h3, h4⟩
        cases h4
        cases h3
        rw [hneg v h] at h2
        cases h2
        exact .const
      · intro hx
        cases hx
        exact ⟨[D.fabs v], .cons .const .nil, hneg v h⟩
    · exact Iff.rfl
  | hv => exact Iff.rfl
  | ho o cs i ih =>
    simp only [replaceNegConsts, replaceNegConstsList_eq, Means.op_iff, List.forall₂_map_left_iff]
    refine exists_congr fun vs => and_congr_left fun _ => ?_
    rw [forall2_iff, forall2_iff]
    exact exists_congr fun hl => forall_congr' fun k => forall_congr' fun hk =>
      ih _ (List.getElem_mem hk) _

/-- **C56.** Nothing else is changed: trees without negative constants stay. -/
theorem C56_unchanged (D : Doubles V) (t : Tree V)
    (h : AllConsts (fun v => D.lt v (D.ofNat 0) = false) t) : replaceNegConsts D t = t := by
  induction t using Tree.induct with
  | hc v i => cases h with | const h => simp [replaceNegConsts, h]
  | hv => rfl
  | ho o cs i ih =>
    cases h with
    | op h =>
      simp only [replaceNegConsts, replaceNegConstsList_eq]
      congr 1
      conv => rhs; rw [← List.map_id cs]
      exact List.map_congr_left fun c hc => ih c hc (h c hc)

/-- Integers as constants, and negation as the meaning of the prefix minus. -/
def intD : Doubles Int := ⟨fun n => n, (· == ·), fun a b => decide (a < b), fun a b => decide (a ≤ b), fun n => n.natAbs⟩

def intNeg (o : Op) (args : List Int) : Except Unit Int :=
  if o.name = "-".toList then match args with
    | [a] => .ok (-a)
    | _ => .error ()
  else .error ()

/-- The hypotheses hold for integers. -/
example : ∀ v, intD.lt v (intD.ofNat 0) = true → intD.lt (intD.fabs v) (intD.ofNat 0) = false := by
  intro v h
  simp only [intD, decide_eq_true_eq, decide_eq_false_iff_not] at h ⊢
  omega
example : ∀ v, intD.lt v (intD.ofNat 0) = true → intNeg negOp [intD.fabs v] = .ok v := by
  intro v h
  simp only [intD, decide_eq_true_eq] at h ⊢
  show Except.ok _ = _
  congr 1
  omega
example : replaceNegConsts intD (.op negOp [.const (-3) 1] 0)
    = .op negOp [.op negOp [.const 3 1] 1] 0 := by rfl

/-! ## C62 -/

/-- **C62.** Applying a ruleset until nothing changes: if it ends, no rule of the set can
be applied any more (to the tree before negative constants are written as
negations). -/
theorem C62_normal_form (D : Doubles V) (checker : Tree V → Bool) (arith : Op → List V → Except ε V) (ve : ε)
    (rules : List (RewriteRule V)) (fuel : Nat) (t t' : Tree V)
    (h : simplifyLoop D checker arith ve rules fuel t = .ok (some t')) :
    ∃ u, t' = replaceNegConsts D u ∧ ∀ r ∈ rules, applyRule D.eq checker r u = .ok none := by
  induction fuel generalizing t with
  | zero => cases h
  | succ fuel ih =>
    simp only [simplifyLoop] at h
    obtain ⟨r, hr, h⟩ := Res.bind_eq_ok.1 h
    obtain ⟨u, n, rfl, h1, h2, h3⟩ := C31_partial D.eq checker rules 1 1 (by omega) (by omega) t r hr
    cases n with
    | zero =>
      cases h
      exact ⟨u, rfl, h3 (by omega)⟩
    | succ n => exact ih _ h

/-- **C62.** If all rules of the set preserve values (`Sound`), so does its application
together with the folding of constants and the treatment of negative constants in
between. -/
theorem C62_value (D : Doubles V) (checker : Tree V → Bool) (arith : Op → List V → Except ε V) (ve : ε)
    {rules : List (RewriteRule V)} {env : Str → Option V} (hs : Sound checker arith env rules)
    (heq : ∀ a b, D.eq a b = true → a = b) (hid : ∀ o p args, o.id = p.id → arith o args = arith p args)
    (o : Op) (ho : ∃ c a, arithCtx = .ok c ∧ c.lookup "-".toList .prefix = .ok (some (a, o)))
    (hneg : ∀ v, D.lt v (D.ofNat 0) = true → arith o [D.fabs v] = .ok v)
    (fuel : Nat) (t t' : Tree V) (h : simplifyLoop D checker arith ve rules fuel t = .ok (some t'))
    (x : V) (hx : Means arith env t x) : Means arith env t' x := by
  induction fuel generalizing t with
  | zero => cases h
  | succ fuel ih =>
    simp only [simplifyLoop] at h
    obtain ⟨r, hr, h⟩ := Res.bind_eq_ok.1 h
    cases r with
    | none => cases h
    | some r =>
      obtain ⟨u, n⟩ := r
      have hu := C51_preserves hs heq hid 1 1 t u n hr x hx
      cases n with
      | zero => cases h; exact (C56_value D arith o ho hneg u env x).2 hu
      | succ n => exact ih _ h ((C25_value arith ve u env x).2 hu)

end Verif.SimplProps
