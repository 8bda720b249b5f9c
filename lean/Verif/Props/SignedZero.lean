import Verif.Model.SignedZero
import Verif.Lemmas.EvalHom
import Verif.Props.Doubles

/-!
# C95: the sign of zero

Evaluation with both zeros, compared with the evaluation of the other theorems, which has one.
-/

namespace Verif.SignedZeroProps
open Verif SDbl DoubleSpec EvaluationProps DoublesProps

/-- The functions of the C library do not tell the zeros apart, but for the results' own sign; `pow` may with an exponent that is
not positive, `tgamma` may.  The logarithm of 1 is 0, not -0. -/
structure Agrees (S : SDbl.Lib) (L : Dbl.Lib) : Prop where
  pow : ∀ a b, a ≠ negZero ∨ Dbl.le b.value (.fin 0) = false → (S.pow a b).value = L.pow a.value b.value
  fmod : ∀ a b, (S.fmod a b).value = L.fmod a.value b.value
  fn : ∀ f a, f ≠ .tgamma ∨ a ≠ negZero → (S.fn f a).value = L.fn f a.value
  log : ∀ a, S.fn .log a ≠ negZero

theorem signed_value (s : Bool) (x : Dbl) : (signed s x).value = x := by
  unfold signed
  split
  · next h => rw [h.2]; rfl
  · rfl

theorem signed_pos (x : Dbl) : signed false x ≠ negZero := by
  simp [signed]

theorem neg_value (a : SDbl) : (SDbl.neg a).value = Dbl.neg a.value := by
  cases a with
  | negZero => simp [SDbl.neg, value, Dbl.neg]
  | of x =>
    unfold SDbl.neg
    dsimp only
    split
    · next h => rw [h]; simp [value, Dbl.neg]
    · rfl

theorem add_value (a b : SDbl) : (SDbl.add Dbl.round a b).value = Dbl.add Dbl.round a.value b.value := by
  unfold SDbl.add
  split
  · next h =>
    rw [h.1, h.2]
    show Dbl.fin 0 = Dbl.round (0 + 0)
    rw [add_zero, Dbl.round_binary64 Dbl.binary64_zero]
  · exact signed_value _ _

theorem round_one : Dbl.round ((1 : ℤ) : ℚ) = .fin 1 := by exact_mod_cast Dbl.round_int (n := 1) (by norm_num)

theorem round_zero : Dbl.round ((0 : ℤ) : ℚ) = .fin 0 := by exact_mod_cast Dbl.round_int (n := 0) (by norm_num)

theorem round_two : Dbl.round ((2 : ℤ) : ℚ) = .fin 2 := by exact_mod_cast Dbl.round_int (n := 2) (by norm_num)

/-- A difference of numbers in this order is not -0. -/
theorem sub_pos (a b : SDbl) (ha : a ≠ negZero) (h : ¬ Dbl.lt a.value b.value = true) :
    SDbl.add Dbl.round a (SDbl.neg b) ≠ negZero := by
  unfold SDbl.add
  rw [if_neg (fun hc => ha hc.1), neg_value]
  have : negativeSum a.value (Dbl.neg b.value) = false := by
    revert h
    rcases a.value with x | s | _ <;> rcases b.value with y | t | _ <;> simp [negativeSum, Dbl.neg, Dbl.lt]
  rw [this]
  exact signed_pos _

/-- The map that forgets the sign of zero keeps the operations. -/
theorem value_hom {S : SDbl.Lib} {L : Dbl.Lib} (h : Agrees S L) :
    (SDbl.arith Dbl.round S).Hom (Dbl.arith Dbl.round L) value (· ≠ negZero) where
  ofInt _ := rfl
  literal _ := rfl
  infinity := rfl
  add := add_value
  sub a b := by
    show (SDbl.add Dbl.round a (SDbl.neg b)).value = Dbl.add Dbl.round a.value (Dbl.neg b.value)
    rw [add_value, neg_value]
  mul a b := signed_value _ _
  div a b hb := by
    cases b with
    | negZero => exact absurd rfl hb
    | of y => exact signed_value _ _
  neg := neg_value
  eq _ _ := rfl
  lt _ _ := rfl
  le _ _ := rfl
  isinf a := rfl
  toInt _ := rfl
  toLong _ := rfl
  pow a b hz := h.pow a b (hz.imp_right fun hz => by
    have : Dbl.le b.value (Dbl.round ((0 : ℤ) : ℚ)) = false := hz
    rwa [round_zero] at this)
  fmod := h.fmod
  fn f a hf := by
    cases f
    case trunc => exact signed_value _ _
    case floor => exact signed_value _ _
    case ceil => exact signed_value _ _
    case round => exact signed_value _ _
    case fabs => rfl
    all_goals exact h.fn _ a hf
  zInt n := by intro hc; cases hc
  zAbs a := by intro hc; cases hc
  zLog a := h.log a
  zEq a ha := by
    rintro rfl
    have : Dbl.eq (.fin 0) (Dbl.round ((0 : ℤ) : ℚ)) = false := ha
    rw [round_zero] at this
    simp [Dbl.eq] at this
  zLeft a b ha hl := by
    refine sub_pos a b ha ?_
    have hl : Dbl.lt b.value a.value = true := hl
    intro hc
    have h1 := (C93_order _ _).1.1 hl
    exact ((C93_order _ _).1.1 hc).2 h1.1
  zRight a b hb hl := by
    have hl : Dbl.lt b.value a.value = false := hl
    exact sub_pos b a hb (by rw [hl]; simp)
  zOne i hi := by
    rintro rfl
    have : Dbl.le (Dbl.round ((1 : ℤ) : ℚ)) (.fin 0) = true := hi
    rw [round_one] at this
    simp [Dbl.le, Dbl.lt, Dbl.eq] at this
    norm_num at this
  one := by
    show Dbl.le (Dbl.round ((1 : ℤ) : ℚ)) (Dbl.round ((1 : ℤ) : ℚ)) = true
    rw [round_one]
    simp [Dbl.le, Dbl.eq]
  succ i hi := by
    have hi : Dbl.le (Dbl.round ((1 : ℤ) : ℚ)) i.value = true := hi
    show Dbl.le (Dbl.round ((1 : ℤ) : ℚ)) (SDbl.add Dbl.round i (.of (Dbl.round ((1 : ℤ) : ℚ)))).value = true
    rw [add_value]
    rw [round_one] at hi ⊢
    rw [(C93_order _ _).2.2] at hi ⊢
    show Below (.fin 1) (Dbl.add Dbl.round i.value (.fin 1))
    generalize i.value = y at hi
    rcases y with x | s | _
    · change (1 : ℚ) ≤ x at hi
      show Below (.fin 1) (Dbl.round (x + 1))
      have := C93_monotone (show (1 : ℚ) ≤ x + 1 by linarith)
      have e : Dbl.round 1 = .fin 1 := by exact_mod_cast round_one
      rwa [e] at this
    · exact hi
    · cases hi
  two := by
    show Dbl.le (Dbl.round ((2 : ℤ) : ℚ)) (Dbl.round ((0 : ℤ) : ℚ)) = false
    rw [round_two, round_zero]
    simp [Dbl.le, Dbl.lt, Dbl.eq]

/-- The numbers in a list are the same but for the signs of zeros. -/
def Same (as bs : List SDbl) : Prop := as.map value = bs.map value

/-- Two results are the same number but for the sign of zero, or the same error. -/
def SameResult : Except EvalErr SDbl → Except EvalErr SDbl → Prop
  | .ok a, .ok b => a.value = b.value
  | .error e, .error f => e = f
  | _, _ => False

theorem sameResult {a b : Except EvalErr SDbl} (h : mapOk value a = mapOk value b) : SameResult a b := by
  cases a <;> cases b <;> simp [mapOk, SameResult] at h ⊢ <;> exact h

/-- **C95**, full statement: equal numbers have equal results. -/
def Blind (S : SDbl.Lib) (o : Op) : Prop :=
  ∀ (hist hist' args args' : List SDbl) (rnd fuel : ℕ), Same hist hist' → Same args args' →
    SameResult (evalOp (SDbl.arith Dbl.round S) hist rnd fuel o args) (evalOp (SDbl.arith Dbl.round S) hist' rnd fuel o args')

/-- **C95** holds for all operators but `root` and `gamma`. -/
theorem C95_partial {S : SDbl.Lib} {L : Dbl.Lib} (h : Agrees S L) (o og or : Op) (hr : Builtin "root" .function or)
    (hg : Builtin "gamma" .function og) (h1 : o.id ≠ or.id) (h2 : o.id ≠ og.id) : Blind S o := by
  rw [hr.id (k := 16) (by decide +kernel)] at h1
  rw [hg.id (k := 50) (by decide +kernel)] at h2
  intro hist hist' args args' rnd fuel hh ha
  refine sameResult ?_
  rw [evalOp_hom (value_hom h) _ _ _ _ _ (.inl ⟨h1, h2⟩), evalOp_hom (value_hom h) _ _ _ _ _ (.inl ⟨h1, h2⟩), hh, ha]

/-- **C95**: the evaluation with one zero is that with two, if the sign of zero is left out; for `root` and `gamma`, if -0 is not
among the arguments. -/
theorem C95_model {S : SDbl.Lib} {L : Dbl.Lib} (h : Agrees S L) (o og or : Op) (hr : Builtin "root" .function or)
    (hg : Builtin "gamma" .function og) (hist args : List SDbl) (rnd fuel : ℕ)
    (ho : o.id ≠ or.id ∧ o.id ≠ og.id ∨ negZero ∉ args) (v : Dbl) :
    evalOp (Dbl.arith Dbl.round L) (hist.map value) rnd fuel o (args.map value) = .ok v ↔
      ∃ w, evalOp (SDbl.arith Dbl.round S) hist rnd fuel o args = .ok w ∧ w.value = v := by
  rw [hr.id (k := 16) (by decide +kernel), hg.id (k := 50) (by decide +kernel)] at ho
  rw [← evalOp_hom (value_hom h) hist rnd fuel o args (ho.imp_right fun hn a ha hc => hn (by rw [← hc]; exact ha))]
  cases evalOp (SDbl.arith Dbl.round S) hist rnd fuel o args with
  | ok w => simp [mapOk]
  | error e => simp [mapOk]

/-- The same for errors. -/
theorem C95_errors {S : SDbl.Lib} {L : Dbl.Lib} (h : Agrees S L) (o og or : Op) (hr : Builtin "root" .function or)
    (hg : Builtin "gamma" .function og) (hist args : List SDbl) (rnd fuel : ℕ)
    (ho : o.id ≠ or.id ∧ o.id ≠ og.id ∨ negZero ∉ args) (e : EvalErr) :
    evalOp (Dbl.arith Dbl.round L) (hist.map value) rnd fuel o (args.map value) = .error e ↔
      evalOp (SDbl.arith Dbl.round S) hist rnd fuel o args = .error e := by
  rw [hr.id (k := 16) (by decide +kernel), hg.id (k := 50) (by decide +kernel)] at ho
  rw [← evalOp_hom (value_hom h) hist rnd fuel o args (ho.imp_right fun hn a ha hc => hn (by rw [← hc]; exact ha))]
  cases evalOp (SDbl.arith Dbl.round S) hist rnd fuel o args with
  | ok w => simp [mapOk]
  | error e => simp [mapOk]

/-! ## Whole expressions -/

mutual
/-- The expression with the numbers mapped. -/
def image (f : SDbl → Dbl) : Tree SDbl → Tree Dbl
  | .const v i => .const (f v) i
  | .var n x i => .var n x i
  | .op o cs i => .op o (images f cs) i
def images (f : SDbl → Dbl) : List (Tree SDbl) → List (Tree Dbl)
  | [] => []
  | c :: cs => image f c :: images f cs
end

mutual
/-- None of its operators is among these. -/
def Without (ids : List ℕ) : Tree SDbl → Prop
  | .const _ _ => True
  | .var _ _ _ => True
  | .op o cs _ => o.id ∉ ids ∧ Withouts ids cs
def Withouts (ids : List ℕ) : List (Tree SDbl) → Prop
  | [] => True
  | c :: cs => Without ids c ∧ Withouts ids cs
end

/-- A result, with an error that has a position. -/
def value' {α : Type} (f : α → β) : Except (EvalErr × Path) α → Except (EvalErr × Path) β
  | .ok v => .ok (f v)
  | .error e => .error e

mutual
theorem reduce_hom {S : SDbl.Lib} {L : Dbl.Lib} (h : Agrees S L) (hist : List SDbl) (rnd fuel : ℕ) (e : EvalErr) :
    ∀ (t : Tree SDbl) (p : Path), Without [16, 50] t →
      value' value (treeReduce (evalOp (SDbl.arith Dbl.round S) hist rnd fuel) e t p) =
        treeReduce (evalOp (Dbl.arith Dbl.round L) (hist.map value) rnd fuel) e (image value t) p
  | .const _ _, _, _ => by rw [treeReduce, image, treeReduce]; rfl
  | .var _ _ _, _, _ => by rw [treeReduce, image, treeReduce]; rfl
  | .op o cs _, p, ht => by
    obtain ⟨h1, h2⟩ := ht
    rw [treeReduce, image, treeReduce, ← reduceArgs_hom h hist rnd fuel e cs p 0 h2]
    cases reduceArgs (evalOp (SDbl.arith Dbl.round S) hist rnd fuel) e cs p 0 with
    | error x => rfl
    | ok args =>
      simp only [value']
      rw [← evalOp_hom (value_hom h) hist rnd fuel o args (.inl ⟨by rintro hc; exact h1 (by simp [hc]), by rintro hc; exact h1 (by simp [hc])⟩)]
      cases evalOp (SDbl.arith Dbl.round S) hist rnd fuel o args <;> rfl
theorem reduceArgs_hom {S : SDbl.Lib} {L : Dbl.Lib} (h : Agrees S L) (hist : List SDbl) (rnd fuel : ℕ) (e : EvalErr) :
    ∀ (cs : List (Tree SDbl)) (p : Path) (k : ℕ), Withouts [16, 50] cs →
      value' (List.map value) (reduceArgs (evalOp (SDbl.arith Dbl.round S) hist rnd fuel) e cs p k) =
        reduceArgs (evalOp (Dbl.arith Dbl.round L) (hist.map value) rnd fuel) e (images value cs) p k
  | [], _, _, _ => by rw [reduceArgs, images, reduceArgs]; rfl
  | c :: cs, p, k, ht => by
    obtain ⟨h1, h2⟩ := ht
    rw [reduceArgs, images, reduceArgs, ← reduce_hom h hist rnd fuel e c _ h1]
    cases treeReduce (evalOp (SDbl.arith Dbl.round S) hist rnd fuel) e c (p ++ [k]) with
    | error x => rfl
    | ok v =>
      simp only [value']
      rw [← reduceArgs_hom h hist rnd fuel e cs p (k + 1) h2]
      cases reduceArgs (evalOp (SDbl.arith Dbl.round S) hist rnd fuel) e cs p (k + 1) <;> rfl
end

/-- **C95** for expressions without `root` and `gamma`: the value with one zero is that with two without its sign, and errors and
their positions are the same. -/
theorem C95_expressions_partial {S : SDbl.Lib} {L : Dbl.Lib} (h : Agrees S L) (og or : Op) (hr : Builtin "root" .function or)
    (hg : Builtin "gamma" .function og) (hist : List SDbl) (rnd fuel : ℕ) (e : EvalErr) (t : Tree SDbl) (p : Path)
    (ht : Without [or.id, og.id] t) :
    (∀ v, treeReduce (evalOp (Dbl.arith Dbl.round L) (hist.map value) rnd fuel) e (image value t) p = .ok v ↔
      ∃ w, treeReduce (evalOp (SDbl.arith Dbl.round S) hist rnd fuel) e t p = .ok w ∧ w.value = v) ∧
    ∀ x, treeReduce (evalOp (Dbl.arith Dbl.round L) (hist.map value) rnd fuel) e (image value t) p = .error x ↔
      treeReduce (evalOp (SDbl.arith Dbl.round S) hist rnd fuel) e t p = .error x := by
  rw [hr.id (k := 16) (by decide +kernel), hg.id (k := 50) (by decide +kernel)] at ht
  rw [← reduce_hom h hist rnd fuel e t p ht]
  cases treeReduce (evalOp (SDbl.arith Dbl.round S) hist rnd fuel) e t p <;> simp [value']

/-! ## Violations -/

/-- A library: powers with infinite exponents, and `tgamma` of zeros, as the standard has them; else NaN. -/
def lib : SDbl.Lib where
  pow _ b := match b.value with
    | .inf true => .of (.fin 0)
    | .inf false => .of (.inf false)
    | _ => .of .nan
  fmod _ _ := .of .nan
  fn f a := match f, a with
    | .tgamma, negZero => .of (.inf true)
    | .tgamma, .of x => if x = .fin 0 then .of (.inf false) else .of .nan
    | _, _ => .of .nan

/-- It agrees with this one. -/
def lib' : Dbl.Lib where
  pow _ b := match b with
    | .inf true => .fin 0
    | .inf false => .inf false
    | _ => .nan
  fmod _ _ := .nan
  fn f a := match f, a with
    | .tgamma, x => if x = .fin 0 then .inf false else .nan
    | _, _ => .nan

theorem lib_agrees : Agrees lib lib' where
  pow a b _ := by
    show (lib.pow a b).value = lib'.pow a.value b.value
    unfold lib lib'
    dsimp only
    split <;> rfl
  fmod _ _ := rfl
  fn f a hf := by
    cases a with
    | negZero =>
      cases f
      case tgamma => rcases hf with hf | hf <;> exact absurd rfl hf
      all_goals rfl
    | of x =>
      cases f
      case tgamma =>
        show (if x = .fin 0 then SDbl.of (.inf false) else .of .nan).value = if x = .fin 0 then .inf false else .nan
        split <;> rfl
      all_goals rfl
  log a := by
    show (SDbl.of .nan) ≠ negZero
    intro h
    cases h

theorem root_eval (o : Op) (ho : Builtin "root" .function o) (hist : List SDbl) (rnd fuel : ℕ) (a b : SDbl) :
    evalOp (SDbl.arith Dbl.round lib) hist rnd fuel o [a, b] = if Dbl.le (Dbl.round ((0 : ℤ) : ℚ)) a.value = true then
      .ok (lib.pow a (SDbl.div Dbl.round (.of (Dbl.round ((1 : ℤ) : ℚ))) b)) else .error (.code .complexSolution) := by
  unfold evalOp
  rw [ho.id (k := 16) (by decide +kernel)]
  rfl

theorem gamma_eval (o : Op) (ho : Builtin "gamma" .function o) (hist : List SDbl) (rnd fuel : ℕ) (a : SDbl) :
    evalOp (SDbl.arith Dbl.round lib) hist rnd fuel o [a] = .ok (lib.fn .tgamma a) := by
  unfold evalOp
  rw [ho.id (k := 50) (by decide +kernel)]
  rfl

/-- **C95** fails for `root`: `root(2, 0)` is infinite, `root(2, -0)` is 0. -/
theorem C95_root (o : Op) (ho : Builtin "root" .function o) (hist : List SDbl) (rnd fuel : ℕ) :
    evalOp (SDbl.arith Dbl.round lib) hist rnd fuel o [.of (.fin 2), .of (.fin 0)] = .ok (.of (.inf false)) ∧
    evalOp (SDbl.arith Dbl.round lib) hist rnd fuel o [.of (.fin 2), negZero] = .ok (.of (.fin 0)) ∧ ¬ Blind lib o := by
  have h1 : evalOp (SDbl.arith Dbl.round lib) hist rnd fuel o [.of (.fin 2), .of (.fin 0)] = .ok (.of (.inf false)) := by
    rw [root_eval o ho]
    decide +kernel
  have h2 : evalOp (SDbl.arith Dbl.round lib) hist rnd fuel o [.of (.fin 2), negZero] = .ok (.of (.fin 0)) := by
    rw [root_eval o ho]
    decide +kernel
  refine ⟨h1, h2, fun hb => ?_⟩
  have := hb hist hist [.of (.fin 2), .of (.fin 0)] [.of (.fin 2), negZero] rnd fuel rfl rfl
  rw [h1, h2] at this
  cases this

/-- **C95** fails for `gamma`: `gamma(0)` and `gamma(-0)` are different infinities. -/
theorem C95_gamma (o : Op) (ho : Builtin "gamma" .function o) (hist : List SDbl) (rnd fuel : ℕ) :
    evalOp (SDbl.arith Dbl.round lib) hist rnd fuel o [.of (.fin 0)] = .ok (.of (.inf false)) ∧
    evalOp (SDbl.arith Dbl.round lib) hist rnd fuel o [negZero] = .ok (.of (.inf true)) ∧ ¬ Blind lib o := by
  have h1 : evalOp (SDbl.arith Dbl.round lib) hist rnd fuel o [.of (.fin 0)] = .ok (.of (.inf false)) := by
    rw [gamma_eval o ho]
    decide +kernel
  have h2 : evalOp (SDbl.arith Dbl.round lib) hist rnd fuel o [negZero] = .ok (.of (.inf true)) := by
    rw [gamma_eval o ho]
    decide +kernel
  refine ⟨h1, h2, fun hb => ?_⟩
  have := hb hist hist [.of (.fin 0)] [negZero] rnd fuel rfl rfl
  rw [h1, h2] at this
  cases this

/-- The sign is shown: `-0` and `0*(-1)` are -0, with the text "-0"; `0-0` is 0. -/
theorem C95_shown (S : SDbl.Lib) (om ot os : Op) (hm : Builtin "-" .prefix om) (ht : Builtin "*" .infix ot) (hs : Builtin "-" .infix os)
    (hist : List SDbl) (rnd fuel : ℕ) :
    evalOp (SDbl.arith Dbl.round S) hist rnd fuel om [.of (.fin 0)] = .ok negZero ∧
    evalOp (SDbl.arith Dbl.round S) hist rnd fuel ot [.of (.fin 0), .of (.fin (-1))] = .ok negZero ∧
    evalOp (SDbl.arith Dbl.round S) hist rnd fuel os [.of (.fin 0), .of (.fin 0)] = .ok (.of (.fin 0)) ∧
    text Printf.general10 negZero = "-0".toList ∧ text Printf.general10 (.of (.fin 0)) = "0".toList := by
  refine ⟨?_, ?_, ?_, ?_, ?_⟩
  · unfold evalOp
    rw [hm.id (k := 12) (by decide +kernel)]
    rfl
  · unfold evalOp
    rw [ht.id (k := 6) (by decide +kernel)]
    refine congrArg Except.ok ?_
    show SDbl.mul Dbl.round (.of (.fin 0)) (.of (.fin (-1))) = _
    decide +kernel
  · unfold evalOp
    rw [hs.id (k := 5) (by decide +kernel)]
    refine congrArg Except.ok ?_
    show SDbl.add Dbl.round (.of (.fin 0)) (SDbl.neg (.of (.fin 0))) = _
    decide +kernel
  · decide +kernel
  · decide +kernel

/-- The hypotheses are met: `2*(0-x)` for x = 0 is 0 with one zero, -0 with two if the difference is written `-x`. -/
example : ∃ om ot, Builtin "-" .prefix om ∧ Builtin "*" .infix ot ∧ Without [16, 50] (.op ot [.const (.of (.fin 2)) 0, .op om [.const (.of (.fin 0)) 0] 0] 0) ∧
    treeReduce (evalOp (SDbl.arith Dbl.round lib) [] 0 0) (.code .variableEncountered)
      (.op ot [.const (.of (.fin 2)) 0, .op om [.const (.of (.fin 0)) 0] 0] 0) [] = .ok negZero := by
  obtain ⟨om, hm⟩ := builtin_exists (name := "-") (pl := .prefix) (by decide +kernel)
  obtain ⟨ot, ht⟩ := builtin_exists (name := "*") (pl := .infix) (by decide +kernel)
  have im := hm.id (k := 12) (by decide +kernel)
  have it := ht.id (k := 6) (by decide +kernel)
  refine ⟨om, ot, hm, ht, ?_, ?_⟩
  · simp [Without, Withouts, im, it]
  · have e1 : evalOp (SDbl.arith Dbl.round lib) [] 0 0 om [.of (.fin 0)] = .ok negZero := by
      unfold evalOp
      rw [im]
      rfl
    have e2 : evalOp (SDbl.arith Dbl.round lib) [] 0 0 ot [.of (.fin 2), negZero] = .ok negZero := by
      unfold evalOp
      rw [it]
      decide +kernel
    simp only [treeReduce, reduceArgs, e1, e2]

end Verif.SignedZeroProps
