import Verif.Lemmas.SimplifyAll
import Verif.Lemmas.ShippedFit
import Verif.Lemmas.Weights

/-!
# When the last ruleset ends

The only rule of ruleset 6, `x*(-y) -> -y*x`, moves a negated number to the front.  Every expression has a number of places
where this can be done; the rule makes it smaller unless it exchanges two negated numbers.
-/

namespace Verif
open TreeProps RewriteProps Shipped
variable {V ε : Type}

/-- A number. -/
def Tree.isNumber : Tree V → Bool
  | .const _ _ => true
  | _ => false

/-- A negated number. -/
def Tree.isNegated : Tree V → Bool
  | .op o [.const _ _] _ => o.id == 12
  | _ => false

theorem isNegated_two (o : Op) (a b : Tree V) (l : List (Tree V)) (i : Nat) : (Tree.op o (a :: b :: l) i).isNegated = false := by
  cases a <;> rfl

/-- Somewhere in the expression two negated numbers are multiplied. -/
inductive NegatedPair : Tree V → Prop where
  | here {o a b i} : o.id = 6 → a.isNegated = true → b.isNegated = true → NegatedPair (.op o [a, b] i)
  | child {o cs i c} : c ∈ cs → NegatedPair c → NegatedPair (.op o cs i)

/-- Something that is not a number times a negated number. -/
def turnAt (o : Op) : List (Tree V) → Nat
  | [a, b] => if o.id = 6 ∧ a.isNumber = false ∧ b.isNegated = true then 1 else 0
  | _ => 0

mutual
/-- Number of places where something that is not a number is multiplied with a negated number. -/
def turns : Tree V → Nat
  | .const _ _ => 0
  | .var _ _ _ => 0
  | .op o cs _ => turnAt o cs + turnsList cs
/-- For a list. -/
def turnsList : List (Tree V) → Nat
  | [] => 0
  | c :: cs => turns c + turnsList cs
end

theorem turnsList_append (l r : List (Tree V)) : turnsList (l ++ r) = turnsList l + turnsList r := by
  induction l with
  | nil => simp [turnsList]
  | cons a l ih => simp only [List.cons_append, turnsList, ih]; omega

theorem turnAt_le (o : Op) (cs : List (Tree V)) : turnAt o cs ≤ 1 := by
  unfold turnAt
  split
  · split <;> omega
  · omega

/-! ## Equal expressions -/

theorem Equal.isNumber {eqV : V → V → Bool} {t u : Tree V} (h : Equal eqV t u) : t.isNumber = u.isNumber := by
  cases h <;> rfl

theorem Equal.isNegated {eqV : V → V → Bool} {t u : Tree V} (h : Equal eqV t u) : t.isNegated = u.isNegated := by
  cases h with
  | refl => rfl
  | const => rfl
  | var => rfl
  | @op o p cs ds i j hl ho hc =>
    match cs, ds, hl with
    | [], [], _ => rfl
    | [a], [b], _ =>
      have := (hc 0 (by simp)).isNumber
      simp only [List.getElem_cons_zero] at this
      cases a <;> cases b <;> simp [Tree.isNumber] at this <;> simp [Tree.isNegated, ho]
    | a :: b :: l, c :: d :: m, _ => rw [isNegated_two, isNegated_two]

theorem Equal.turns {eqV : V → V → Bool} {t u : Tree V} (h : Equal eqV t u) : turns t = turns u := by
  induction h with
  | refl => rfl
  | const => rfl
  | var => rfl
  | @op o p cs ds i j hl ho hc ih =>
    have e1 : turnAt o cs = turnAt p ds := by
      match cs, ds, hl with
      | [], [], _ => rfl
      | [a], [b], _ => rfl
      | [a, b], [c, d], _ =>
        have g1 := (hc 0 (by simp)).isNumber
        have g2 := (hc 1 (by simp)).isNegated
        simp only [List.getElem_cons_zero, List.getElem_cons_succ] at g1 g2
        simp only [turnAt, ho, g1, g2]
      | a :: b :: c :: l, d :: e :: f :: m, _ => rfl
    have e2 : ∀ (cs ds : List (Tree V)) (hl : cs.length = ds.length),
        (∀ k (hk : k < cs.length), Verif.turns cs[k] = Verif.turns (ds[k]'(hl ▸ hk))) → turnsList cs = turnsList ds := by
      intro cs
      induction cs with
      | nil => intro ds hl _; match ds, hl with | [], _ => rfl
      | cons a cs ih' =>
        intro ds hl h
        match ds, hl with
        | b :: ds, hl =>
          have h0 := h 0 (by simp)
          have hr := ih' ds (by simpa using hl) fun k hk => by
            have := h (k + 1) (by simpa using hk)
            simpa using this
          simp only [List.getElem_cons_zero] at h0
          simp only [turnsList, h0, hr]
    simp only [Verif.turns, e1, e2 cs ds hl ih]

theorem Equal.pair {eqV : V → V → Bool} {t u : Tree V} (h : Equal eqV t u) : NegatedPair t → NegatedPair u := by
  induction h with
  | refl => exact id
  | const => intro h; cases h
  | var => intro h; cases h
  | @op o p cs ds i j hl ho hc ih =>
    intro h
    cases h with
    | @here _ a b _ h1 h2 h3 =>
      match ds, hl with
      | [c, d], _ =>
        have g1 := (hc 0 (by simp)).isNegated
        have g2 := (hc 1 (by simp)).isNegated
        simp only [List.getElem_cons_zero, List.getElem_cons_succ] at g1 g2
        exact .here (ho ▸ h1) (g1 ▸ h2) (g2 ▸ h3)
    | child hm h =>
      obtain ⟨k, hk, rfl⟩ := List.mem_iff_getElem.1 hm
      exact .child (List.getElem_mem (hl ▸ hk)) (ih k hk h)

/-! ## Replacing a part -/

theorem Replaced.ordering {t t' s u : Tree V} {p : List Nat} (h : Replaced t p s u t') (hs : s.isNumber = false)
    (hs' : s.isNegated = false) (hu : u.isNumber = false) (hu' : u.isNegated = false) (hlt : turns u < turns s) :
    t.isNumber = false ∧ t'.isNumber = false ∧ t.isNegated = t'.isNegated ∧ turns t' < turns t ∧
    (NegatedPair t' → NegatedPair u ∨ NegatedPair t) := by
  induction h with
  | here => exact ⟨hs, hu, by rw [hs', hu'], hlt, .inl⟩
  | @child o cs ds p s c c' u i hr ih =>
    obtain ⟨h1, h2, h3, h4, h5⟩ := ih hs hs' hu hu' hlt
    refine ⟨rfl, rfl, ?_, ?_, ?_⟩
    · match cs, ds with
      | [], [] => cases c <;> cases c' <;> simp [Tree.isNumber] at h1 h2 <;> rfl
      | [], d :: ds => simp only [List.nil_append, isNegated_two]
      | [a], ds => simp only [List.cons_append, List.nil_append, isNegated_two]
      | a :: b :: l, ds => simp only [List.cons_append, isNegated_two]
    · have e : turnAt o (cs ++ c' :: ds) = turnAt o (cs ++ c :: ds) := by
        match cs, ds with
        | [], [] => rfl
        | [], [d] => simp [turnAt, h1, h2]
        | [], d :: e :: ds => rfl
        | [a], [] => simp [turnAt, h3]
        | [a], d :: ds => rfl
        | [a, b], ds => cases ds <;> rfl
        | a :: b :: e :: l, ds => rfl
      simp only [turns, turnsList_append, turnsList, e]
      omega
    · intro hp
      generalize hl : cs ++ c' :: ds = l at hp
      cases hp with
      | @here _ a b _ g1 g2 g3 =>
        right
        match cs, ds, hl with
        | [], [d], hl =>
          simp only [List.nil_append, List.cons.injEq, and_true] at hl
          obtain ⟨rfl, rfl⟩ := hl
          exact .here g1 (h3 ▸ g2) g3
        | [x], [], hl =>
          simp only [List.cons_append, List.nil_append, List.cons.injEq, and_true] at hl
          obtain ⟨rfl, rfl⟩ := hl
          exact .here g1 g2 (h3 ▸ g3)
        | x :: y :: cs, ds, hl => simp at hl
      | @child _ _ _ x hx g =>
        subst hl
        rcases List.mem_append.1 hx with hx | hx
        · exact .inr (.child (List.mem_append_left _ hx) g)
        · rcases List.mem_cons.1 hx with rfl | hx
          · rcases h5 g with h | h
            · exact .inl h
            · exact .inr (.child (by simp) h)
          · exact .inr (.child (by simp [hx]) g)

theorem Replaced.pair {t t' s u : Tree V} {p : List Nat} (h : Replaced t p s u t') : NegatedPair s → NegatedPair t := by
  induction h with
  | here => exact id
  | child _ ih => exact fun h => .child (by simp) (ih h)

theorem Replaced.turns_le {t t' s u : Tree V} {p : List Nat} (h : Replaced t p s u t') : turns s ≤ turns t := by
  induction h with
  | here => exact Nat.le_refl _
  | child _ ih =>
    simp only [turns, turnsList_append, turnsList]
    omega

theorem Replaced.ops {P : Op → Nat → Prop} {t t' s u : Tree V} {p : List Nat} (h : Replaced t p s u t') :
    Verif.AllOps P t → Verif.AllOps P s := by
  induction h with
  | here => exact id
  | child _ ih => exact fun h => ih (h.child.2 _ (by simp))

/-- Equal expressions have operators with the same ids. -/
theorem Equal.ops {Q : Nat → Prop} {eqV : V → V → Bool} {t u : Tree V} (h : Equal eqV t u) :
    Verif.AllOps (fun o _ => Q o.id) u → Verif.AllOps (fun o _ => Q o.id) t := by
  induction h with
  | refl => exact id
  | const => exact fun _ => .const
  | var => exact fun _ => .var
  | @op o p cs ds i j hl ho hc ih =>
    intro h
    refine .op (by rw [ho]; exact h.child.1) fun c hc => ?_
    obtain ⟨k, hk, rfl⟩ := List.mem_iff_getElem.1 hc
    exact ih k hk (h.child.2 _ (List.getElem_mem (hl ▸ hk)))

/-! ## Evaluating constants -/

/-- What evaluating constants does to a part. -/
def Milder (r t : Tree V) : Prop :=
  (t.isNumber = true → r.isNumber = true) ∧ (r.isNegated = true → t.isNegated = true) ∧ turns r ≤ turns t ∧
  (NegatedPair r → NegatedPair t)

theorem Milder.refl (t : Tree V) : Milder t t := ⟨id, id, Nat.le_refl _, id⟩

theorem Milder.const {v : V} {i : Nat} (t : Tree V) : Milder (.const v i) t :=
  ⟨fun _ => rfl, fun h => (by cases h), Nat.zero_le _, fun h => (by cases h)⟩

theorem milder_op {o : Op} {i : Nat} {rs ts : List (Tree V)} (h : List.Forall₂ Milder rs ts)
    (hn : ∀ r t, rs = [r] → ts = [t] → r.isNumber = true → t.isNumber = true) : Milder (.op o rs i) (.op o ts i) := by
  refine ⟨fun h => (by cases h), ?_, ?_, ?_⟩
  · intro hr
    match rs, ts, h with
    | [.const v j], [t], _ =>
      have := hn _ _ rfl rfl rfl
      cases t with
      | const => exact hr
      | var => cases this
      | op => cases this
  · have e1 : turnAt o rs ≤ turnAt o ts := by
      match rs, ts, h with
      | [], [], _ => exact Nat.le_refl _
      | [a], [b], _ => exact Nat.le_refl _
      | [a, b], [c, d], .cons h1 (.cons h2 .nil) =>
        simp only [turnAt]
        split
        · rename_i hh
          obtain ⟨g1, g2, g3⟩ := hh
          have hc : c.isNumber = false := by
            cases hc : c.isNumber with
            | false => rfl
            | true => rw [h1.1 hc] at g2; cases g2
          rw [if_pos ⟨g1, hc, h2.2.1 g3⟩]
        · omega
      | a :: b :: c :: l, d :: e :: f :: m, _ => exact Nat.zero_le _
    have e2 : turnsList rs ≤ turnsList ts := by
      clear hn e1
      induction h with
      | nil => exact Nat.le_refl _
      | cons h1 _ ih =>
        have := h1.2.2.1
        simp only [turnsList]
        omega
    simp only [turns]
    omega
  · intro hp
    cases hp with
    | @here _ a b _ g1 g2 g3 =>
      match ts, h with
      | [c, d], .cons h1 (.cons h2 .nil) => exact .here g1 (h1.2.1 g2) (h2.2.1 g3)
    | @child _ _ _ x hx g =>
      clear hn
      have key : ∀ {rs ts : List (Tree V)}, List.Forall₂ Milder rs ts → x ∈ rs → ∃ y ∈ ts, NegatedPair y := by
        intro rs ts h
        induction h with
        | nil => intro hx; cases hx
        | cons h1 _ ih =>
          intro hx
          rcases List.mem_cons.1 hx with rfl | hx
          · exact ⟨_, by simp, h1.2.2.2 g⟩
          · obtain ⟨y, hy, hg⟩ := ih hx
            exact ⟨y, by simp [hy], hg⟩
      obtain ⟨y, hy, hg⟩ := key h hx
      exact .child hy hg

/-- Only what has no variables becomes a number. -/
theorem reduceConst_number (arith : Op → List V → Except ε V) (ve : ε) (t : Tree V) (p : Path)
    (h : (reduceConst arith ve t p).1.isNumber = true) : countVars t = 0 := by
  cases t with
  | const => rfl
  | var n x i => simp [reduceConst, countVars, Tree.isNumber] at h
  | op o cs i =>
    rw [reduceConst] at h
    split at h
    · assumption
    · cases h

theorem reduceConst_milder (arith : Op → List V → Except ε V) (ve : ε) (t : Tree V) : ∀ p,
    Milder (reduceConst arith ve t p).1 t := by
  refine Tree.rec
    (motive_1 := fun t => ∀ p, Milder (reduceConst arith ve t p).1 t)
    (motive_2 := fun l => ∀ p k, List.Forall₂ Milder (reduceConsts arith ve l p k).1 l)
    ?_ ?_ ?_ ?_ ?_ t
  · intro v i p
    simpa [reduceConst, countVars, treeReduce] using Milder.refl _
  · intro n x i p
    simpa [reduceConst, countVars] using Milder.refl _
  · intro o cs i ih p
    rw [reduceConst]
    split
    · split
      · exact .refl _
      · exact .const _
    · rename_i hv
      refine milder_op (ih p 0) ?_
      intro r t h1 h2 h3
      subst h2
      have e : (reduceConst arith ve t (p ++ [0])).1 = r := by
        rw [reduceConsts] at h1
        split at h1
        · rename_i he
          rw [he]
          exact (List.cons.inj h1).1
        · rename_i he
          rw [he]
          exact (List.cons.inj h1).1
      have := reduceConst_number arith ve t _ (e ▸ h3)
      exact absurd (by simpa [countVars, countVarsList] using this) hv
  · intro p k
    exact .nil
  · intro c cs h1 h2 p k
    rw [reduceConsts]
    have g1 := h1 (p ++ [k])
    generalize reduceConst arith ve c (p ++ [k]) = r at g1
    obtain ⟨c', e⟩ := r
    cases e with
    | some e => exact .cons g1 (List.forall₂_same.2 fun x _ => .refl x)
    | none => exact .cons g1 (h2 p (k + 1))

/-- If evaluating constants does not fail, no negated number is left. -/
theorem reduceConst_none (arith : Op → List V → Except ε V) (ve : ε) (t : Tree V) : ∀ p,
    (reduceConst arith ve t p).2 = none →
    turns (reduceConst arith ve t p).1 = 0 ∧ (reduceConst arith ve t p).1.isNegated = false := by
  refine Tree.rec
    (motive_1 := fun t => ∀ p, (reduceConst arith ve t p).2 = none →
      turns (reduceConst arith ve t p).1 = 0 ∧ (reduceConst arith ve t p).1.isNegated = false)
    (motive_2 := fun l => ∀ p k, (reduceConsts arith ve l p k).2 = none →
      turnsList (reduceConsts arith ve l p k).1 = 0 ∧ ∀ c ∈ (reduceConsts arith ve l p k).1, c.isNegated = false)
    ?_ ?_ ?_ ?_ ?_ t
  · intro v i p _
    simp [reduceConst, countVars, treeReduce, turns, Tree.isNegated]
  · intro n x i p _
    simp [reduceConst, countVars, turns, Tree.isNegated]
  · intro o cs i ih p
    rw [reduceConst]
    split
    · split
      · intro h; cases h
      · intro _; exact ⟨rfl, rfl⟩
    · rename_i hv
      intro h
      obtain ⟨h1, h2⟩ := ih p 0 h
      refine ⟨?_, ?_⟩
      · have : turnAt o (reduceConsts arith ve cs p 0).1 = 0 := by
          generalize (reduceConsts arith ve cs p 0).1 = l at h2
          unfold turnAt
          split
          · rename_i a b
            rw [if_neg]
            rintro ⟨-, -, h⟩
            rw [h2 b (by simp)] at h
            cases h
          · rfl
        simp only [turns, h1, this]
      · match cs with
        | [] => rfl
        | c :: d :: cs =>
          have : 2 ≤ (reduceConsts arith ve (c :: d :: cs) p 0).1.length := by
            rw [reduceConsts]
            split
            · simp
            · simp only [List.length_cons]
              rw [reduceConsts]
              split <;> simp
          dsimp only
          generalize (reduceConsts arith ve (c :: d :: cs) p 0).1 = l at this
          match l, this with
          | a :: b :: l, _ => exact isNegated_two ..
        | [c] =>
          dsimp only
          have hc : (reduceConst arith ve c (p ++ [0])).1.isNumber = false := by
            by_contra hc
            have := reduceConst_number arith ve c _ (by simpa using hc)
            exact hv (by simpa [countVars, countVarsList] using this)
          rw [reduceConsts]
          generalize reduceConst arith ve c (p ++ [0]) = r at hc
          obtain ⟨c', e⟩ := r
          cases e <;> (cases c' <;> first | rfl | cases hc)
  · intro p k _
    exact ⟨rfl, fun c hc => by cases hc⟩
  · intro c cs h1 h2 p k
    rw [reduceConsts]
    have g1 := h1 (p ++ [k])
    generalize reduceConst arith ve c (p ++ [k]) = r at g1
    obtain ⟨c', e⟩ := r
    cases e with
    | some e => intro h; cases h
    | none =>
      intro h
      obtain ⟨a1, a2⟩ := g1 rfl
      obtain ⟨b1, b2⟩ := h2 p (k + 1) h
      refine ⟨by simp only [turnsList] at a1 ⊢; omega, ?_⟩
      intro x hx
      rcases List.mem_cons.1 hx with rfl | hx
      · exact a2
      · exact b2 x hx

/-! ## The constraints -/

theorem kind_plain {D : Doubles V} {b : Tree V} (hb : Verif.AllOps (fun o _ => o.id < 58) b) :
    reduceOps (· == typeOp) (typeEval D) b = .ok b := by
  refine reduceOps_plain _ b ?_
  induction hb with
  | const => exact .const
  | var => exact .var
  | @op o cs i h1 _ ih =>
    refine .op ?_ ih
    rw [beq_eq_false_iff_ne]
    rintro rfl
    exact absurd h1 (by decide)

theorem eval_const (M : Machine V ε) : propEvaluate M.dbl M.arith o62 [] = .ok (M.dbl.ofNat 2) := by
  have q2 : ¬ o62.id < numArithOps := by decide +kernel
  have q4 : o62.id - numArithOps = 4 := by decide +kernel
  unfold propEvaluate
  rw [if_neg q2, q4]
  rfl

theorem kind_is {D : Doubles V} (hD : D.Sane) (b : Tree V) : D.eq (D.kind b) (D.ofNat 2) = b.isNumber := by
  cases b with
  | const => exact hD 2 2 (by omega) (by omega)
  | var => exact hD 3 2 (by omega) (by omega)
  | op => exact hD 4 2 (by omega) (by omega)

theorem bool_is {D : Doubles V} (hD : D.Sane) (x : Bool) : D.eq (D.bool x) (D.ofNat 0) = !x := by
  cases x
  · exact hD 0 0 (by omega) (by omega)
  · exact hD 1 0 (by omega) (by omega)

/-- `type(b) != CONST` -/
theorem checker_notConst {M : Machine V ε} (hD : M.dbl.Sane) {b : Tree V} (hb : Verif.AllOps (fun o _ => o.id < 58) b)
    {i j k : Nat} : M.checker (.op o61 [.op o58 [b] i, .op o62 [] j] k) = !b.isNumber := by
  have e1 : (o58 == typeOp) = true := by decide
  have e2 : (o61 == typeOp) = false := by decide
  have e3 : (o62 == typeOp) = false := by decide
  have e4 : (o61 == equalOp) = false := by decide
  have e5 : (o62 == equalOp) = false := by decide
  have q1 : ¬ o61.id < numArithOps := by decide +kernel
  have q3 : o61.id - numArithOps = 3 := by decide +kernel
  have r1 : reduceOps (· == typeOp) (typeEval M.dbl) (.op o61 [.op o58 [b] i, .op o62 [] j] k)
      = .ok (.op o61 [.const (M.dbl.kind b) i, .op o62 [] j] k) := by
    simp only [reduceOps, reduceOpsList, kind_plain hb, Res.bind_ok, e1, e2, e3, if_true, Bool.false_eq_true, if_false,
      typeEval, Res.pure_eq]
  have r2 : reduceOps (· == equalOp) (equalEval M.dbl) (.op o61 [.const (M.dbl.kind b) i, .op o62 [] j] k)
      = .ok (.op o61 [.const (M.dbl.kind b) i, .op o62 [] j] k) := by
    simp only [reduceOps, reduceOpsList, Res.bind_ok, e4, e5, Bool.false_eq_true, if_false, Res.pure_eq]
  have p2 : propEvaluate M.dbl M.arith o61 [M.dbl.kind b, M.dbl.ofNat 2]
      = .ok (M.dbl.bool (!M.dbl.eq (M.dbl.kind b) (M.dbl.ofNat 2))) := by
    unfold propEvaluate
    rw [if_neg q1, q3]
    rfl
  have r3 : treeReduce (propEvaluate M.dbl M.arith) (.listener M.varErr)
      (.op o61 [.const (M.dbl.kind b) i, .op o62 [] j] k) [] = .ok (M.dbl.bool (!b.isNumber)) := by
    simp only [treeReduce, reduceArgs, eval_const, p2, kind_is hD]
  unfold Machine.checker propChecker
  simp only [r1, r2, r3, Res.bind_ok, Res.pure_eq, bool_is hD, Bool.not_not]

/-- `type(b) == CONST` -/
theorem checker_const {M : Machine V ε} (hD : M.dbl.Sane) {b : Tree V} (hb : Verif.AllOps (fun o _ => o.id < 58) b)
    {i j k : Nat} : M.checker (.op o60 [.op o58 [b] i, .op o62 [] j] k) = b.isNumber := by
  have e1 : (o58 == typeOp) = true := by decide
  have e2 : (o60 == typeOp) = false := by decide
  have e3 : (o62 == typeOp) = false := by decide
  have e4 : (o60 == equalOp) = false := by decide
  have e5 : (o62 == equalOp) = false := by decide
  have q1 : ¬ o60.id < numArithOps := by decide +kernel
  have q3 : o60.id - numArithOps = 2 := by decide +kernel
  have r1 : reduceOps (· == typeOp) (typeEval M.dbl) (.op o60 [.op o58 [b] i, .op o62 [] j] k)
      = .ok (.op o60 [.const (M.dbl.kind b) i, .op o62 [] j] k) := by
    simp only [reduceOps, reduceOpsList, kind_plain hb, Res.bind_ok, e1, e2, e3, if_true, Bool.false_eq_true, if_false,
      typeEval, Res.pure_eq]
  have r2 : reduceOps (· == equalOp) (equalEval M.dbl) (.op o60 [.const (M.dbl.kind b) i, .op o62 [] j] k)
      = .ok (.op o60 [.const (M.dbl.kind b) i, .op o62 [] j] k) := by
    simp only [reduceOps, reduceOpsList, Res.bind_ok, e4, e5, Bool.false_eq_true, if_false, Res.pure_eq]
  have p2 : propEvaluate M.dbl M.arith o60 [M.dbl.kind b, M.dbl.ofNat 2]
      = .ok (M.dbl.bool (M.dbl.eq (M.dbl.kind b) (M.dbl.ofNat 2))) := by
    unfold propEvaluate
    rw [if_neg q1, q3]
    rfl
  have r3 : treeReduce (propEvaluate M.dbl M.arith) (.listener M.varErr)
      (.op o60 [.const (M.dbl.kind b) i, .op o62 [] j] k) [] = .ok (M.dbl.bool b.isNumber) := by
    simp only [treeReduce, reduceArgs, eval_const, p2, kind_is hD]
  unfold Machine.checker propChecker
  simp only [r1, r2, r3, Res.bind_ok, Res.pure_eq, bool_is hD, Bool.not_not]

/-! ## The rule -/

section inst
variable {σ : Str → Option (List (Tree V))} {g : Nat → Nat} {o : Op} {a b : Tree V} {i : Nat} {l : List (Tree V)}

theorem Inst.none (h : Inst σ g (.op o [] i) l) : l = [.op o [] (g i)] := by
  cases h with
  | @op _ _ _ parts hl _ => match parts, hl with | [], _ => rfl

theorem Inst.one (h : Inst σ g (.op o [a] i) l) : ∃ as, Inst σ g a as ∧ l = [.op o as (g i)] := by
  cases h with
  | @op _ _ _ parts hl h =>
    match parts, hl with
    | [as], _ => exact ⟨as, h 0 (by simp), by simp⟩

theorem Inst.two (h : Inst σ g (.op o [a, b] i) l) : ∃ as bs, Inst σ g a as ∧ Inst σ g b bs ∧ l = [.op o (as ++ bs) (g i)] := by
  cases h with
  | @op _ _ _ parts hl h =>
    match parts, hl with
    | [as, bs], _ => exact ⟨as, bs, h 0 (by simp), h 1 (by simp), by simp⟩

theorem Inst.single {n : Str} {x : Nat} {X : Tree V} (h : Inst σ g (.var n x i) l) (hX : σ n = some [X]) : l = [X] := by
  cases h with
  | var h => rw [hX] at h; exact (Option.some.inj h).symm

end inst

/-- Where the rule is applied, something that is not a number is multiplied with a negated number.  Unless two negated numbers
are multiplied somewhere, there is one such place less afterwards, and still no two negated numbers are multiplied. -/
theorem ordering_applied {M : Machine V ε} (hD : M.dbl.Sane) (f : ℚ → V) {t t' : Tree V}
    (ht : Verif.AllOps (fun o _ => o.id < 58) t)
    (h : applyRule M.dbl.eq M.checker (p6_0.rule f) t = .ok (some t')) :
    1 ≤ turns t ∧ (¬ NegatedPair t → turns t' < turns t ∧ ¬ NegatedPair t') := by
  have hacc := rule_accepted (parts_fit 6 p6_0 (by simp [partsOf, parts6])) f
  obtain ⟨σ, p, s, l, w, h1, h2, h3, h4, h5, h6⟩ := C29_instance hacc M.dbl.eq M.checker t t' h
  have hnx : ['x'] ∈ (p6_0.left.mapVal f).varNames := by
    simp [p6_0, Tree.mapVal, Tree.mapVals, varNames_eq, Tree.names, Tree.namesList]
  have hny : ['y'] ∈ (p6_0.left.mapVal f).varNames := by
    simp [p6_0, Tree.mapVal, Tree.mapVals, varNames_eq, Tree.names, Tree.namesList]
  obtain ⟨X, hX⟩ := h4 ['x'] hnx (by simp [ListName])
  obtain ⟨Y, hY⟩ := h4 ['y'] hny (by simp [ListName])
  have h5 := h5 (by
    intro c hc n hn
    simp only [p6_0, List.map_cons, List.map_nil, List.mem_cons, List.not_mem_nil, or_false] at hc
    rcases hc with rfl | rfl
    · simp [Tree.mapVal, Tree.mapVals, varNames_eq, Tree.names, Tree.namesList] at hn
      rw [hn]; exact hnx
    · simp [Tree.mapVal, Tree.mapVals, varNames_eq, Tree.names, Tree.namesList] at hn
      rw [hn]; exact hny) (List.ne_nil_of_mem hnx)
  have g1 := h5 _ (by simp only [p6_0, List.map_cons]; exact List.mem_cons_self)
  have g2 := h5 _ (by simp only [p6_0, List.map_cons]; exact List.mem_cons_of_mem _ List.mem_cons_self)
  simp only [p6_0, Tree.mapVal, Tree.mapVals] at h2 h6 g1 g2
  obtain ⟨as, bs, ha, hb, e⟩ := h2.two
  obtain ⟨cs, hc, rfl⟩ := hb.one
  cases ha.single hX
  cases hc.single hY
  cases e
  obtain ⟨as, bs, ha, hb, e⟩ := h6.two
  obtain ⟨cs, hc, rfl⟩ := ha.one
  cases hb.single hX
  cases hc.single hY
  cases e
  obtain ⟨c1, i1, k1⟩ := g1
  obtain ⟨as, bs, ha, hb, e⟩ := i1.two
  obtain ⟨cs, hc, rfl⟩ := ha.one
  cases hb.none
  cases hc.single hX
  cases e
  obtain ⟨c2, i2, k2⟩ := g2
  obtain ⟨as, bs, ha, hb, e⟩ := i2.two
  obtain ⟨cs, hc, rfl⟩ := ha.one
  cases hb.none
  cases hc.single hY
  cases e
  simp only [List.cons_append, List.nil_append] at h1 h3 k1 k2
  have hl := h3.ops (Q := (· < 58)) (h1.ops ht)
  have hXo := hl.child.2 X (by simp)
  have hYo := (hl.child.2 (.op o12 [Y] 3) (by simp)).child.2 Y (by simp)
  rw [checker_notConst hD hXo, Bool.not_eq_true'] at k1
  rw [checker_const hD hYo] at k2
  match Y, k2 with
  | .const v j, _ =>
    have e12 : (Tree.op o12 [.const v j] 3 : Tree V).isNegated = true := rfl
    have et : turns s = 1 + turns X := by
      rw [← h3.turns]
      simp [turns, turnsList, turnAt, k1, e12, show o6.id = 6 from rfl, show o12.id = 12 from rfl]
    have hs := h1.turns_le
    refine ⟨by omega, fun hp => ?_⟩
    have hp' : ¬ NegatedPair (Tree.op o6 [X, .op o12 [.const v j] 3] 1) := fun h => hp (h1.pair (h3.pair h))
    have hXn : X.isNegated = false := by
      cases hX : X.isNegated with
      | false => rfl
      | true => exact absurd (.here rfl hX e12) hp'
    have hw : ∀ k, NegatedPair (Tree.op o6 [.op o12 [.const v j] k, X] k) → False := by
      intro k h
      cases h with
      | here _ _ h => rw [hXn] at h; cases h
      | child hm h =>
        simp only [List.mem_cons, List.not_mem_nil, or_false] at hm
        rcases hm with rfl | rfl
        · cases h with
          | child hm h =>
            rw [List.mem_singleton.1 hm] at h
            cases h
        · exact hp' (.child (by simp) h)
    have hsn : s.isNegated = false := by rw [← h3.isNegated]; exact isNegated_two ..
    obtain ⟨-, -, -, a4, a5⟩ := h1.ordering (by rw [← h3.isNumber]; rfl) hsn rfl (isNegated_two ..) (by
      rw [et]
      simp [turns, turnsList, turnAt, hXn])
    exact ⟨a4, fun h => (a5 h).elim (hw _) hp⟩

end Verif
