import Verif.Spec.Conditions
import Verif.Props.TreeUtil
import Verif.Props.Parser
import Verif.Lemmas.ArithContext

/-!
# Facts about the constraint checker
-/

namespace Verif
open TreeProps
variable {V ε : Type}

/-- The operators of the propositional context as they are stored. -/
def propBuiltin : List Op :=
  (arithOps ++ propOps).zipIdx.map fun x => { x.1 with id := x.2 }

theorem propCtx_ok : ∃ c, propCtx = .ok c ∧ c.ops.map (·.2) = propBuiltin ∧ c.glue = none := by
  have key : (match propCtx with
    | .ok c => decide (c.ops.map (·.2) = propBuiltin ∧ c.glue = none)
    | _ => false) = true := by decide +kernel
  cases h : propCtx with
  | defect => rw [h] at key; cases key
  | ub => rw [h] at key; cases key
  | ok c => rw [h] at key; exact ⟨c, rfl, by simpa using key⟩

theorem reduceOpsList_eq {isOp : Op → Bool} {cb : List (Tree V) → Res V} {l l' : List (Tree V)}
    (h : List.Forall₂ (fun t t' => reduceOps isOp cb t = .ok t') l l') :
    reduceOpsList isOp cb l = .ok l' := by
  induction h with
  | nil => rfl
  | cons h1 _ ih => simp [reduceOpsList, h1, ih, Res.pure_eq]

theorem reduceOps_op {isOp : Op → Bool} {cb : List (Tree V) → Res V} {o : Op} {l l' : List (Tree V)}
    {i : Nat} (ho : isOp o = false) (h : List.Forall₂ (fun t t' => reduceOps isOp cb t = .ok t') l l') :
    reduceOps isOp cb (.op o l i) = .ok (.op o l' i) := by
  simp [reduceOps, reduceOpsList_eq h, ho, Res.pure_eq]

theorem reduceOps_plain {isOp : Op → Bool} (cb : List (Tree V) → Res V) (t : Tree V)
    (h : AllOps (fun o => isOp o = false) t) : reduceOps isOp cb t = .ok t := by
  induction t using Tree.induct with
  | hc => rfl
  | hv => rfl
  | ho o cs i ih =>
    cases h with
    | op h1 h2 => exact reduceOps_op h1 (List.forall₂_same.2 fun c hc => ih c hc (h2 c hc))

theorem AllOps.imp {P Q : Op → Prop} (h : ∀ o, P o → Q o) {t : Tree V} (ht : AllOps P t) : AllOps Q t := by
  induction t using Tree.induct with
  | hc => exact .const
  | hv => exact .var
  | ho o cs i ih =>
    cases ht with
    | op h1 h2 => exact .op (h o h1) fun c hc => ih c hc (h2 c hc)

/-- Operators of arithmetic. -/
def IsArith (o : Op) : Prop := ({ o with id := 0 } : Op) ∈ arithOps

instance (o : Op) : Decidable (IsArith o) := by unfold IsArith; infer_instance

/-- Facts about the operators of the context, by inspection. -/
theorem arith_class : ∀ o ∈ propBuiltin, o.id < 58 → IsArith o ∧
    o.name ≠ "type".toList ∧ o.name ≠ "equal".toList ∧ (o.name = "!".toList → o.placement ≠ .prefix) ∧
    o.name ∉ ["==", "!=", ">", "<", ">=", "<=", "||", "FALSE", "TRUE", "CONST", "VAR", "OP"].map String.toList := by
  decide +kernel

theorem prop_class : ∀ o ∈ propBuiltin, ¬ o.id < 58 → ¬ IsArith o ∧
    o ∈ (propOps.zipIdx 58).map fun x => { x.1 with id := x.2 } := by
  decide +kernel

theorem comparison_none {D : Doubles V} {n : Str}
    (h : n ∉ ["==", "!=", ">", "<", ">=", "<=", "||", "FALSE", "TRUE", "CONST", "VAR", "OP"].map String.toList) :
    comparison D n = none := by
  simp only [List.map_cons, List.map_nil, List.mem_cons, not_or] at h
  simp only [comparison, h, if_false]

theorem named_none {D : Doubles V} {n : Str}
    (h : n ∉ ["==", "!=", ">", "<", ">=", "<=", "||", "FALSE", "TRUE", "CONST", "VAR", "OP"].map String.toList) :
    named D n = none := by
  simp only [List.map_cons, List.map_nil, List.mem_cons, not_or] at h
  simp only [named, h, if_false]

/-- Names that are treated specially. -/
def special : List Str := ["type", "equal", "count"].map String.toList

theorem condVal_op {D : Doubles V} {arith : Op → List V → Except ε V} {o : Op} (ho : o ∈ propBuiltin)
    (hs : o.name ∉ special) {cs : List (Tree V)} {i : Nat}
    (har : o.arity = .dyn ∨ o.arity = .fixed cs.length) (v : V) :
    CondVal D arith IsArith (.op o cs i) v ↔
      ∃ vs, List.Forall₂ (CondVal D arith IsArith) cs vs ∧ propEvaluate D arith o vs = .ok v := by
  by_cases hid : o.id < 58
  · obtain ⟨h1, h2, h3, h4, h5⟩ := arith_class o ho hid
    have hp : ∀ vs, propEvaluate D arith o vs = .ok v ↔ arith o vs = .ok v := by
      intro vs
      unfold propEvaluate numArithOps
      rw [if_pos hid]
      cases arith o vs <;> simp
    simp only [hp]
    constructor
    · intro h
      cases h with
      | type h => exact absurd h h2
      | equal h => exact absurd h h3
      | named h => rw [named_none h5] at h; cases h
      | «infix» h => rw [comparison_none h5] at h; cases h
      | not h h' => exact absurd h' (h4 h)
      | arith hl _ h h' => exact ⟨_, forall2_iff.2 ⟨hl, h⟩, h'⟩
    · rintro ⟨vs, h, h'⟩
      obtain ⟨hl, h⟩ := forall2_iff.1 h
      exact .arith hl h1 h h'
  · obtain ⟨h1, h2⟩ := prop_class o ho hid
    have key : CondVal D arith IsArith (.op o cs i) v ↔
        (cs = [] ∧ named D o.name = some v) ∨
        (∃ a b x y f, cs = [a, b] ∧ comparison D o.name = some f ∧ CondVal D arith IsArith a x ∧
          CondVal D arith IsArith b y ∧ v = D.ofNat (if f x y then 1 else 0)) ∨
        (∃ a x, cs = [a] ∧ o.name = "!".toList ∧ o.placement = .prefix ∧ CondVal D arith IsArith a x ∧
          v = D.ofNat (if D.eq x (D.ofNat 0) then 1 else 0)) := by
      constructor
      · intro h
        cases h with
        | type h => exact absurd (by rw [h]; simp [special]) hs
        | equal h => exact absurd (by rw [h]; simp [special]) hs
        | named h => exact .inl ⟨rfl, h⟩
        | «infix» h ha hb hx => exact .inr (.inl ⟨_, _, _, _, _, rfl, h, ha, hb, hx⟩)
        | not h h' ha hx => exact .inr (.inr ⟨_, _, rfl, h, h', ha, hx⟩)
        | arith _ h => exact absurd h h1
      · rintro (⟨rfl, h⟩ | ⟨a, b, x, y, f, rfl, h, ha, hb, hx⟩ | ⟨a, x, rfl, h, h', ha, hx⟩)
        · exact .named h
        · exact .infix h ha hb hx
        · exact .not h h' ha hx
    rw [key]
    clear key ho h1 hid
    -- the cases left are concrete
    have infixCase : ∀ f, named D o.name = none → comparison D o.name = some f → o.name ≠ "!".toList →
        (∀ vs, propEvaluate D arith o vs = binary (fun a b => D.bool (f a b)) vs) → o.arity = .fixed 2 →
        ((cs = [] ∧ named D o.name = some v) ∨
        (∃ a b x y f, cs = [a, b] ∧ comparison D o.name = some f ∧ CondVal D arith IsArith a x ∧
          CondVal D arith IsArith b y ∧ v = D.ofNat (if f x y then 1 else 0)) ∨
        (∃ a x, cs = [a] ∧ o.name = "!".toList ∧ o.placement = .prefix ∧ CondVal D arith IsArith a x ∧
          v = D.ofNat (if D.eq x (D.ofNat 0) then 1 else 0)) ↔
        ∃ vs, List.Forall₂ (CondVal D arith IsArith) cs vs ∧ propEvaluate D arith o vs = .ok v) := by
      intro f hn hc hx hp hl
      constructor
      · rintro (⟨-, h⟩ | ⟨a, b, x, y, f', rfl, hf, ha, hb, rfl⟩ | ⟨_, _, -, h, -⟩)
        · rw [hn] at h; cases h
        · rw [hc] at hf; cases hf
          exact ⟨[x, y], .cons ha (.cons hb .nil), by rw [hp]; rfl⟩
        · exact absurd h hx
      · rintro ⟨vs, h, hb⟩
        rw [hp] at hb
        rw [hl] at har
        simp only [reduceCtorEq, Arity.fixed.injEq, false_or] at har
        rcases h with _ | ⟨h1, _ | ⟨h2, h3⟩⟩
        · cases har
        · cases har
        · cases h3 with
          | nil => cases hb; exact .inr (.inl ⟨_, _, _, _, _, rfl, hc, h1, h2, rfl⟩)
          | cons => simp at har
    have constCase : ∀ w, named D o.name = some w → comparison D o.name = none → o.name ≠ "!".toList →
        (∀ vs, propEvaluate D arith o vs = .ok w) → o.arity = .fixed 0 →
        ((cs = [] ∧ named D o.name = some v) ∨
        (∃ a b x y f, cs = [a, b] ∧ comparison D o.name = some f ∧ CondVal D arith IsArith a x ∧
          CondVal D arith IsArith b y ∧ v = D.ofNat (if f x y then 1 else 0)) ∨
        (∃ a x, cs = [a] ∧ o.name = "!".toList ∧ o.placement = .prefix ∧ CondVal D arith IsArith a x ∧
          v = D.ofNat (if D.eq x (D.ofNat 0) then 1 else 0)) ↔
        ∃ vs, List.Forall₂ (CondVal D arith IsArith) cs vs ∧ propEvaluate D arith o vs = .ok v) := by
      intro w hn hc hx hp hl
      constructor
      · rintro (⟨rfl, h⟩ | ⟨_, _, _, _, _, -, hf, -⟩ | ⟨_, _, -, h, -⟩)
        · rw [hn] at h; cases h
          exact ⟨[], .nil, hp _⟩
        · rw [hc] at hf; cases hf
        · exact absurd h hx
      · rintro ⟨vs, h, hb⟩
        rw [hp] at hb
        cases hb
        rw [hl] at har
        simp only [reduceCtorEq, Arity.fixed.injEq, false_or] at har
        exact .inl ⟨List.length_eq_zero_iff.1 har.symm, hn⟩
    have notCase : named D o.name = none → comparison D o.name = none → o.name = "!".toList →
        o.placement = .prefix → (∀ a vs, propEvaluate D arith o (a :: vs) = .ok (D.bool (D.eq a (D.ofNat 0)))) →
        o.arity = .fixed 1 →
        ((cs = [] ∧ named D o.name = some v) ∨
        (∃ a b x y f, cs = [a, b] ∧ comparison D o.name = some f ∧ CondVal D arith IsArith a x ∧
          CondVal D arith IsArith b y ∧ v = D.ofNat (if f x y then 1 else 0)) ∨
        (∃ a x, cs = [a] ∧ o.name = "!".toList ∧ o.placement = .prefix ∧ CondVal D arith IsArith a x ∧
          v = D.ofNat (if D.eq x (D.ofNat 0) then 1 else 0)) ↔
        ∃ vs, List.Forall₂ (CondVal D arith IsArith) cs vs ∧ propEvaluate D arith o vs = .ok v) := by
      intro hn hc hx hpl hp hl
      constructor
      · rintro (⟨-, h⟩ | ⟨_, _, _, _, _, -, hf, -⟩ | ⟨a, x, rfl, -, -, ha, rfl⟩)
        · rw [hn] at h; cases h
        · rw [hc] at hf; cases hf
        · exact ⟨[x], .cons ha .nil, hp _ _⟩
      · rintro ⟨vs, h, hb⟩
        rw [hl] at har
        simp only [reduceCtorEq, Arity.fixed.injEq, false_or] at har
        rcases h with _ | ⟨h1, h2⟩
        · cases har
        · rw [hp] at hb
          cases hb
          cases h2 with
          | nil => exact .inr (.inr ⟨_, _, rfl, hx, hpl, h1, rfl⟩)
          | cons => simp at har
    simp only [propOps, List.zipIdx_cons, List.zipIdx_nil, List.map_cons, List.map_nil, List.mem_cons,
      List.not_mem_nil, or_false] at h2
    rcases h2 with rfl | rfl | rfl | rfl | rfl | rfl | rfl | rfl | rfl | rfl | rfl | rfl | rfl | rfl | rfl | rfl
    · exact absurd (by decide +kernel) hs
    · exact absurd (by decide +kernel) hs
    · exact infixCase _ rfl rfl (by decide +kernel) (fun _ => rfl) rfl
    · exact infixCase _ rfl rfl (by decide +kernel) (fun _ => rfl) rfl
    · exact constCase _ rfl rfl (by decide +kernel) (fun _ => rfl) rfl
    · exact constCase _ rfl rfl (by decide +kernel) (fun _ => rfl) rfl
    · exact constCase _ rfl rfl (by decide +kernel) (fun _ => rfl) rfl
    · exact infixCase _ rfl rfl (by decide +kernel) (fun _ => rfl) rfl
    · exact infixCase _ rfl rfl (by decide +kernel) (fun _ => rfl) rfl
    · exact infixCase _ rfl rfl (by decide +kernel) (fun _ => rfl) rfl
    · exact infixCase _ rfl rfl (by decide +kernel) (fun _ => rfl) rfl
    · exact infixCase _ rfl rfl (by decide +kernel) (fun _ => rfl) rfl
    · exact constCase _ rfl rfl (by decide +kernel) (fun _ => rfl) rfl
    · exact constCase _ rfl rfl (by decide +kernel) (fun _ => rfl) rfl
    · exact notCase rfl rfl (by decide +kernel) rfl (fun _ _ => rfl) rfl
    · exact absurd (by decide +kernel) hs

theorem propEvaluate_error {D : Doubles V} {arith : Op → List V → Except ε V} {o : Op}
    (ho : o ∈ propBuiltin) (hs : o.name ∉ special) {vs : List V}
    (har : o.arity = .dyn ∨ o.arity = .fixed vs.length) {e : CondErr ε}
    (h : propEvaluate D arith o vs = .error e) : ∃ e', e = .listener e' := by
  by_cases hid : o.id < 58
  · unfold propEvaluate numArithOps at h
    rw [if_pos hid] at h
    cases ha : arith o vs with
    | ok w => rw [ha] at h; cases h
    | error e' => rw [ha] at h; cases h; exact ⟨e', rfl⟩
  · obtain ⟨-, h2⟩ := prop_class o ho hid
    exfalso
    have two : ∀ f, o.arity = .fixed 2 → propEvaluate D arith o vs = binary f vs → False := by
      intro f hl hb
      rw [hl] at har
      simp only [reduceCtorEq, Arity.fixed.injEq, false_or] at har
      rw [hb] at h
      match vs, har, h with
      | [a, b], _, h => cases h
    simp only [propOps, List.zipIdx_cons, List.zipIdx_nil, List.map_cons, List.map_nil, List.mem_cons,
      List.not_mem_nil, or_false] at h2
    rcases h2 with rfl | rfl | rfl | rfl | rfl | rfl | rfl | rfl | rfl | rfl | rfl | rfl | rfl | rfl | rfl | rfl
    · exact absurd (by decide +kernel) hs
    · exact absurd (by decide +kernel) hs
    · exact two _ rfl rfl
    · exact two _ rfl rfl
    · cases h
    · cases h
    · cases h
    · exact two _ rfl rfl
    · exact two _ rfl rfl
    · exact two _ rfl rfl
    · exact two _ rfl rfl
    · exact two _ rfl rfl
    · cases h
    · cases h
    · simp only [Op.getPrefix, reduceCtorEq, Arity.fixed.injEq, false_or] at har
      match vs, har, h with
      | [a], _, h => cases h
    · exact absurd (by decide +kernel) hs

theorem reduceArgs_ok_length {L : Op → List V → Except ε V} {ve : ε} {l : List (Tree V)} {p : Path} {k : Nat}
    {vs : List V} (h : reduceArgs L ve l p k = .ok vs) : l.length = vs.length := by
  induction l generalizing k vs with
  | nil => cases h; rfl
  | cons c l ih =>
    simp only [reduceArgs] at h
    split at h
    · cases h
    · split at h
      · cases h
      · rename_i h'
        cases h
        simp [ih h']

theorem reduceArgs_error {L : Op → List V → Except ε V} {ve : ε} {l : List (Tree V)} {p : Path} {k : Nat}
    {e : ε × Path} (h : reduceArgs L ve l p k = .error e) : ∃ c ∈ l, ∃ q, treeReduce L ve c q = .error e := by
  induction l generalizing k with
  | nil => cases h
  | cons c l ih =>
    simp only [reduceArgs] at h
    split at h
    · rename_i h'
      cases h
      exact ⟨c, by simp, _, h'⟩
    · split at h
      · rename_i h'
        cases h
        obtain ⟨d, hd, q, hq⟩ := ih h'
        exact ⟨d, by simp [hd], q, hq⟩
      · cases h

/-- Constraints whose evaluation is defined: `type` and `equal` are applied to trees
without these operators, and `count` occurs only in such trees. -/
inductive IsCond : Tree V → Prop where
  | const {v i} : IsCond (.const v i)
  | var {n x i} : IsCond (.var n x i)
  | type {o t i} : o ∈ propBuiltin → o.name = "type".toList →
      AllOps (fun p => p.name ≠ "type".toList ∧ p.name ≠ "equal".toList) t → IsCond (.op o [t] i)
  | equal {o a b i} : o ∈ propBuiltin → o.name = "equal".toList →
      AllOps (fun p => p.name ≠ "type".toList ∧ p.name ≠ "equal".toList) a →
      AllOps (fun p => p.name ≠ "type".toList ∧ p.name ≠ "equal".toList) b → IsCond (.op o [a, b] i)
  | op {o cs i} : o ∈ propBuiltin → o.name ∉ special → (o.arity = .dyn ∨ o.arity = .fixed cs.length) →
      (∀ c ∈ cs, IsCond c) → IsCond (.op o cs i)

theorem typeOp_of : ∀ o ∈ propBuiltin, o.name = "type".toList → o = typeOp := by decide +kernel
theorem equalOp_of : ∀ o ∈ propBuiltin, o.name = "equal".toList → o = equalOp := by decide +kernel

theorem cond_key (D : Doubles V) (arith : Op → List V → Except ε V) (ve : ε) {t : Tree V} (h : IsCond t) :
    ∃ t1 t2, reduceOps (· == typeOp) (typeEval D) t = .ok t1 ∧
      reduceOps (· == equalOp) (equalEval D) t1 = .ok t2 ∧
      (∀ v, Means (propEvaluate D arith) (fun _ => none) t2 v ↔ CondVal D arith IsArith t v) ∧
      ∀ p e q, treeReduce (propEvaluate D arith) (.listener ve) t2 p = .error (e, q) →
        ∃ e', e = CondErr.listener e' := by
  induction t using Tree.induct with
  | hc w i =>
    refine ⟨.const w i, .const w i, rfl, rfl, fun v => ?_, fun p e q h => by cases h⟩
    constructor
    · intro h; cases h; exact .const
    · intro h; cases h; exact .const
  | hv n x i =>
    refine ⟨.var n x i, .var n x i, rfl, rfl, fun v => ?_, fun p e q h => by cases h; exact ⟨_, rfl⟩⟩
    constructor
    · intro h; cases h with | var h => cases h
    · intro h; cases h
  | ho o cs i ih =>
    have mconst : ∀ (v w : V) (i : Nat), Means (propEvaluate D arith) (fun _ => none) (.const v i) w ↔ w = v := by
      intro v w i
      constructor
      · intro h; cases h; rfl
      · rintro rfl; exact .const
    cases h with
    | @type _ t _ ho hn hp =>
      obtain rfl := typeOp_of o ho hn
      have h1 : reduceOps (· == typeOp) (typeEval D) (.op typeOp [t] i) = .ok (.const (D.kind t) i) := by
        have := reduceOps_plain (isOp := (· == typeOp)) (typeEval D) t (AllOps.imp (fun p h => by
          simp only [beq_eq_false_iff_ne, ne_eq]
          rintro rfl
          exact h.1 rfl) hp)
        simp [reduceOps, reduceOpsList, this, typeEval, Res.pure_eq]
      refine ⟨_, _, h1, rfl, fun v => ?_, fun p e q h => by cases h⟩
      rw [mconst]
      constructor
      · rintro rfl
        exact .type hn (by cases t <;> rfl)
      · intro h
        generalize hx : typeOp = o at h
        cases h with
        | type _ h => rw [h]; cases t <;> rfl
        | not h => subst hx; exact absurd h (by decide +kernel)
        | arith _ h => subst hx; exact absurd h (by decide +kernel)
    | @equal _ a b _ ho hn hpa hpb =>
      obtain rfl := equalOp_of o ho hn
      have h1 : reduceOps (· == typeOp) (typeEval D) (.op equalOp [a, b] i) = .ok (.op equalOp [a, b] i) := by
        refine reduceOps_op (by decide +kernel) ?_
        refine .cons ?_ (.cons ?_ .nil)
        all_goals
          refine reduceOps_plain _ _ (AllOps.imp (fun p h => ?_) ‹_›)
          simp only [beq_eq_false_iff_ne, ne_eq]
          rintro rfl
          exact h.1 rfl
      have h2 : reduceOps (· == equalOp) (equalEval D) (.op equalOp [a, b] i)
          = .ok (.const (D.bool (treeEquals D.eq a b)) i) := by
        have imp : ∀ p : Op, p.name ≠ "type".toList ∧ p.name ≠ "equal".toList → (p == equalOp) = false := by
          intro p h
          simp only [beq_eq_false_iff_ne, ne_eq]
          rintro rfl
          exact h.2 rfl
        have ha := reduceOps_plain (isOp := (· == equalOp)) (equalEval D) a (AllOps.imp imp hpa)
        have hb := reduceOps_plain (isOp := (· == equalOp)) (equalEval D) b (AllOps.imp imp hpb)
        simp [reduceOps, reduceOpsList, ha, hb, equalEval, Res.pure_eq]
      refine ⟨_, _, h1, h2, fun v => ?_, fun p e q h => by cases h⟩
      rw [mconst]
      constructor
      · rintro rfl
        exact .equal hn rfl
      · intro h
        generalize hx : equalOp = o at h
        cases h with
        | equal _ h => exact h
        | «infix» h =>
          subst hx
          have : comparison D equalOp.name = none := rfl
          rw [this] at h
          cases h
        | arith _ h => subst hx; exact absurd h (by decide +kernel)
    | op ho hs har hc =>
      have hn1 : (o == typeOp) = false := by
        simp only [beq_eq_false_iff_ne, ne_eq]; rintro rfl; exact hs (by decide +kernel)
      have hn2 : (o == equalOp) = false := by
        simp only [beq_eq_false_iff_ne, ne_eq]; rintro rfl; exact hs (by decide +kernel)
      have key : ∀ l : List (Tree V), (∀ c ∈ l, c ∈ cs) → ∃ l1 l2,
          List.Forall₂ (fun t t' => reduceOps (· == typeOp) (typeEval D) t = .ok t') l l1 ∧
          List.Forall₂ (fun t t' => reduceOps (· == equalOp) (equalEval D) t = .ok t') l1 l2 ∧
          (∀ vs, List.Forall₂ (Means (propEvaluate D arith) (fun _ => none)) l2 vs ↔
            List.Forall₂ (CondVal D arith IsArith) l vs) ∧
          ∀ c ∈ l2, ∀ p e q, treeReduce (propEvaluate D arith) (.listener ve) c p = .error (e, q) →
            ∃ e', e = CondErr.listener e' := by
        intro l
        induction l with
        | nil => intro _; exact ⟨[], [], .nil, .nil, fun vs => by simp, by simp⟩
        | cons c l ihl =>
          intro hsub
          obtain ⟨t1, t2, h1, h2, h3, h4⟩ := ih c (hsub c (by simp)) (hc c (hsub c (by simp)))
          obtain ⟨l1, l2, g1, g2, g3, g4⟩ := ihl fun d hd => hsub d (by simp [hd])
          refine ⟨t1 :: l1, t2 :: l2, .cons h1 g1, .cons h2 g2, ?_, ?_⟩
          · intro vs
            cases vs with
            | nil => simp
            | cons v vs => simp only [List.forall₂_cons, h3, g3]
          · simp only [List.mem_cons, forall_eq_or_imp]
            exact ⟨h4, g4⟩
      obtain ⟨l1, l2, g1, g2, g3, g4⟩ := key cs fun _ h => h
      refine ⟨.op o l1 i, .op o l2 i, reduceOps_op hn1 g1, reduceOps_op hn2 g2, ?_, ?_⟩
      · intro v
        rw [Means.op_iff, condVal_op ho hs har]
        simp only [g3]
      · intro p e q h
        simp only [treeReduce] at h
        split at h
        · rename_i e' h'
          obtain ⟨c, hc, q', hq'⟩ := reduceArgs_error h'
          cases h
          exact g4 c hc q' e q hq'
        · rename_i args h'
          split at h
          · rename_i e' h''
            cases h
            refine propEvaluate_error ho hs ?_ h''
            rw [← reduceArgs_ok_length h', ← g2.length_eq, ← g1.length_eq]
            exact har
          · cases h

end Verif
