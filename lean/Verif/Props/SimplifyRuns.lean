import Verif.Props.Simplify
import Verif.Props.SessionRuns
import Verif.Model.Evaluation
import Verif.Lemmas.KernelRfl

/-!
# Concrete answers of the calculator with the shipped rules

The calculator with exact rational numbers instead of doubles.  All numbers that occur below
are integers a double can hold or small fractions.
-/

namespace Verif.SimplifyProps
open Verif TreeProps RewriteProps SimplProps SessionProps Shipped
set_option maxRecDepth 100000

/-- Rational numbers. -/
def qD : Doubles ℚ where
  ofNat n := n
  eq a b := decide (a = b)
  lt a b := decide (a < b)
  le a b := decide (a ≤ b)
  fabs a := |a|

/-- Exact arithmetic; powers with exponents that are not integers and functions are not needed. -/
def qA : Arith ℚ where
  ofInt n := n
  literal r := r
  infinity := 0
  add a b := a + b
  sub a b := a - b
  mul a b := a * b
  div a b := a / b
  neg a := -a
  eq a b := decide (a = b)
  lt a b := decide (a < b)
  le a b := decide (a ≤ b)
  isinf _ := false
  toInt q := some q.floor
  toLong q := some q.floor
  pow a b := if b.den = 1 then (if b.num < 0 then (a ^ b.num.natAbs)⁻¹ else a ^ b.num.natAbs) else 0
  fmod a b := a - b * (a / b).floor
  fn _ a := a

/-- The operators, with an empty history. -/
def qOp : Op → List ℚ → Except EvalErr ℚ := evalOp qA [] 0 0

/-- The calculator with these numbers. -/
def qK (fuel : Nat) : Client ℚ (SimpErr EvalErr × Nat) (World Unit) :=
  client decimal qD (fun _ h => evalOp qA h 0 0) (.code .variableEncountered) id id fuel

/-- The machine of `simplify`. -/
def qM (fuel : Nat) : Machine ℚ EvalErr := ⟨qD, qOp, .code .variableEncountered, fuel⟩

theorem qD_sane : qD.Sane := by
  intro a b ha hb
  show decide ((a : ℚ) = (b : ℚ)) = decide (a = b)
  simp

/-- A fresh session, rules loaded or not. -/
def fresh (loaded : Bool) : Out (Session ℚ (World Unit)) := Out.of (initSession ⟨loaded, ()⟩)

/-- The answer to an input in a fresh session: `none` if an error is reported. -/
def answer (loaded : Bool) (fuel : Nat) (s : String) : Out (Option (Tree ℚ)) := do
  let s0 ← fresh loaded
  let (_, r) ← evaluationExec (qK fuel) s0 s.toList
  pure r

/-- The tree of an input in a fresh session. -/
def input (s : String) : Res (Option (Tree ℚ)) := do
  let c ← arithCtx
  parseEasy c decimal s.toList

/-! ## C75: values -/

/-- `x` and `y` are 1. -/
def ones : Str → Option ℚ := fun n => if n = ['x'] ∨ n = ['y'] then some 1 else none

theorem means_op1 {L : Op → List ℚ → Except EvalErr ℚ} {σ : Str → Option ℚ} {o : Op} {a : Tree ℚ} {i : Nat} {u v : ℚ}
    (ha : Means L σ a u) (h : L o [u] = .ok v) : Means L σ (.op o [a] i) v := by
  refine .op (vs := [u]) rfl ?_ h
  intro k hk
  match k, hk with
  | 0, _ => exact ha

theorem means_op2 {L : Op → List ℚ → Except EvalErr ℚ} {σ : Str → Option ℚ} {o : Op} {a b : Tree ℚ} {i : Nat} {u v w : ℚ}
    (ha : Means L σ a u) (hb : Means L σ b v) (h : L o [u, v] = .ok w) : Means L σ (.op o [a, b] i) w := by
  refine .op (vs := [u, v]) rfl ?_ h
  intro k hk
  match k, hk with
  | 0, _ => exact ha
  | 1, _ => exact hb

/-- `-2*(x+y)` -/
def negSum : Tree ℚ := .op o6 [.op o12 [.const 2 1] 0, .op o4 [.var ['x'] 0 4, .var ['y'] 0 6] 5] 2
/-- `2*x-2*y` -/
def difference : Tree ℚ := .op o5 [.op o6 [.const 2 2, .var ['x'] 0 4] 2, .op o6 [.const 2 2, .var ['y'] 0 6] 2] 2

/-- **C75**, violated: the answer to `-2*(x+y)` is `2*x-2*y`.  For `x = y = 1` what is entered has the value -4, the answer
has the value 0. -/
theorem C75_wrong : input "-2*(x+y)" = .ok (some negSum) ∧ answer true 200 "-2*(x+y)" = .ok (some difference) ∧
    Means qOp ones negSum (-4) ∧ Means qOp ones difference 0 := by
  refine ⟨by kernel_rfl, by kernel_rfl, ?_, ?_⟩
  · exact means_op2 (u := -2) (v := 2) (means_op1 (u := 2) .const (by kernel_rfl))
      (means_op2 (u := 1) (v := 1) (.var (by kernel_rfl)) (.var (by kernel_rfl)) (by kernel_rfl)) (by kernel_rfl)
  · exact means_op2 (u := 2) (v := 2) (means_op2 (u := 2) (v := 1) .const (.var (by kernel_rfl)) (by kernel_rfl))
      (means_op2 (u := 2) (v := 1) .const (.var (by kernel_rfl)) (by kernel_rfl)) (by kernel_rfl)

example : answer true 200 "1+1" = .ok (some (.const 2 1)) := by kernel_rfl
example : answer true 200 "2*x+3*x" = .ok (some (.op o6 [.const 5 3, .var ['x'] 0 2] 3)) := by kernel_rfl

/-! ## C76: ending -/

section loop
variable {V ε : Type}

/-- A loop that ends has the same result with any bound that suffices. -/
theorem loop_same (D : Doubles V) (checker : Tree V → Bool) (arith : Op → List V → Except ε V) (ve : ε)
    (rules : List (RewriteRule V)) : ∀ {n m : Nat} {t u : Tree V},
    simplifyLoop D checker arith ve rules n t = .ok (some u) →
    simplifyLoop D checker arith ve rules m t = .ok none ∨ simplifyLoop D checker arith ve rules m t = .ok (some u) := by
  intro n
  induction n with
  | zero => intro m t u h; cases h
  | succ n ih =>
    intro m t u h
    cases m with
    | zero => exact .inl rfl
    | succ m =>
      unfold simplifyLoop at h ⊢
      cases ha : applyRuleset D.eq checker rules 1 1 t with
      | ub => rw [ha] at h; cases h
      | defect => rw [ha] at h; cases h
      | ok r =>
        rw [ha, Res.bind_ok] at h
        rw [Res.bind_ok]
        match r, h with
        | some (t', 0), h => exact .inr h
        | some (t', k + 1), h => exact ih h
        | none, h => cases h

theorem apply_same {M : Machine V ε} {n m : Nat} {rules : List (RewriteRule V)} {t u : Tree V}
    (h : ({ M with fuel := n } : Machine V ε).applySimplification rules t = .ok u) :
    ({ M with fuel := m } : Machine V ε).applySimplification rules t = .hang ∨
    ({ M with fuel := m } : Machine V ε).applySimplification rules t = .ok u := by
  change Out.ofFuel (simplifyLoop M.dbl M.checker M.arith M.varErr rules n t) = .ok u at h
  change Out.ofFuel (simplifyLoop M.dbl M.checker M.arith M.varErr rules m t) = .hang ∨
    Out.ofFuel (simplifyLoop M.dbl M.checker M.arith M.varErr rules m t) = .ok u
  cases hl : simplifyLoop M.dbl M.checker M.arith M.varErr rules n t with
  | ub => rw [hl] at h; cases h
  | defect => rw [hl] at h; cases h
  | ok r =>
    rw [hl] at h
    cases r with
    | none => cases h
    | some w =>
      cases h
      rcases loop_same (m := m) _ _ _ _ _ hl with h | h
      · exact .inl (by rw [h]; rfl)
      · exact .inr (by rw [h]; rfl)

end loop

/-- `prod(-a, b)'` and `prod(a, -b)'`. -/
def leftNeg (i a ai b bi : Nat) : Tree ℚ := .op o2 [.op o44 [.op o12 [.const a ai] i, .const b bi] 3] 6
def rightNeg (i a ai b bi : Nat) : Tree ℚ := .op o2 [.op o44 [.const a ai, .op o12 [.const b bi] i] 3] 6

/-- The loop with the main rules. -/
def mainLoop (fuel : Nat) (t : Tree ℚ) : Res (Option (Tree ℚ)) :=
  simplifyLoop qD (qM 0).checker qOp (.code .variableEncountered) ((shippedSimp id).rulesets 3) fuel t

theorem main_0 (n : Nat) : mainLoop (n + 1) (leftNeg 1 2 2 3 4) = mainLoop n (rightNeg 1 3 4 2 2) := by kernel_rfl
theorem main_1 (n : Nat) : mainLoop (n + 1) (rightNeg 1 3 4 2 2) = mainLoop n (leftNeg 3 3 4 2 2) := by kernel_rfl
theorem main_2 (n : Nat) : mainLoop (n + 1) (leftNeg 3 3 4 2 2) = mainLoop n (rightNeg 3 2 2 3 4) := by kernel_rfl
theorem main_3 (n : Nat) : mainLoop (n + 1) (rightNeg 3 2 2 3 4) = mainLoop n (leftNeg 3 2 2 3 4) := by kernel_rfl
theorem main_4 (n : Nat) : mainLoop (n + 1) (leftNeg 3 2 2 3 4) = mainLoop n (rightNeg 3 3 4 2 2) := by kernel_rfl
theorem main_5 (n : Nat) : mainLoop (n + 1) (rightNeg 3 3 4 2 2) = mainLoop n (leftNeg 3 3 4 2 2) := by kernel_rfl

theorem main_cycle : ∀ n, mainLoop n (leftNeg 3 3 4 2 2) = .ok none ∧ mainLoop n (rightNeg 3 2 2 3 4) = .ok none ∧
    mainLoop n (leftNeg 3 2 2 3 4) = .ok none ∧ mainLoop n (rightNeg 3 3 4 2 2) = .ok none := by
  intro n
  induction n with
  | zero => exact ⟨rfl, rfl, rfl, rfl⟩
  | succ n ih =>
    obtain ⟨h1, h2, h3, h4⟩ := ih
    rw [main_2, main_3, main_4, main_5]
    exact ⟨h2, h3, h4, h1⟩

theorem main_never : ∀ n, mainLoop n (leftNeg 1 2 2 3 4) = .ok none
  | 0 => rfl
  | 1 => by rw [main_0]; rfl
  | n + 2 => by rw [main_0, main_1]; exact (main_cycle n).1

/-- `(-2*3)'` -/
def negProd : Tree ℚ := .op o2 [.op o6 [.op o12 [.const 2 2] 1, .const 3 4] 3] 6

theorem input_negProd : input "(-2*3)'" = .ok (some negProd) := by kernel_rfl

theorem fold_negProd : (reduceConst qOp (.code .variableEncountered) negProd []).1 = negProd := by kernel_rfl

theorem sugar_negProd : (qM 3).applySimplification ((shippedSimp id).rulesets 0) negProd = .ok negProd := by kernel_rfl

theorem normal_negProd : (qM 3).applySimplification ((shippedSimp id).rulesets 2) negProd = .ok (leftNeg 1 2 2 3 4) := by
  kernel_rfl

/-- **C76**, violated: the simplification of `(-2*3)'` never ends. -/
theorem C76_diverges (fuel : Nat) : (qM fuel).simplify (shippedSimp id) negProd = .hang := by
  unfold Machine.simplify
  have hi : (!(shippedSimp (V := ℚ) id).initialized) = false := rfl
  rw [if_neg (by rw [hi]; decide)]
  have hf : (reduceConst (qM fuel).arith (qM fuel).varErr negProd []).1 = negProd := fold_negProd
  rw [hf]
  have key : (qM fuel).withoutDerivative (shippedSimp id) negProd = .hang := by
    unfold Machine.withoutDerivative Machine.applyAll
    rcases apply_same (M := qM 3) (n := 3) (m := fuel) sugar_negProd with h | h
    · rw [show (qM fuel).applySimplification _ _ = _ from h]; rfl
    · rw [show (qM fuel).applySimplification _ _ = _ from h, Out.bind_ok]
      unfold Machine.applyAll
      rcases apply_same (M := qM 3) (n := 3) (m := fuel) normal_negProd with h | h
      · rw [show (qM fuel).applySimplification _ _ = _ from h]; rfl
      · rw [show (qM fuel).applySimplification _ _ = _ from h, Out.bind_ok]
        unfold Machine.applyAll
        have : (qM fuel).applySimplification ((shippedSimp id).rulesets 3) (leftNeg 1 2 2 3 4) = .hang := by
          unfold Machine.applySimplification
          have := main_never fuel
          unfold mainLoop at this
          rw [show simplifyLoop (qM fuel).dbl (qM fuel).checker (qM fuel).arith (qM fuel).varErr _ (qM fuel).fuel _ = _ from this]
          rfl
        rw [this]
        rfl
  rw [key]
  rfl

/-- What is entered first is parsed and simplified. -/
theorem answer_eq {text : String} {t : Tree ℚ} (ht : input text = .ok (some t)) (loaded : Bool) (fuel : Nat) :
    answer loaded (fuel + 1) text =
    (do let r ← (qM (fuel + 1)).simplify (if loaded then shippedSimp id else noRules) t
        match r with
        | .error _ => pure none
        | .ok u => pure (some u)) := by
  unfold input at ht
  cases hc : arithCtx with
  | ub => rw [hc] at ht; cases ht
  | defect => rw [hc] at ht; cases ht
  | ok c =>
    rw [hc, Res.bind_ok] at ht
    have hp : parseEasy c (qK (fuel + 1)).strtod text.toList = .ok (some t) := ht
    have hr : applyRuleset (qK (fuel + 1)).eqV (fun _ => true) [] sizeMax (qK (fuel + 1)).fuel t = .ok (some (t, 0)) := rfl
    simp only [answer, fresh, initSession, hc, Res.bind_ok, Res.pure_eq, Out.of, Out.bind_ok, evaluationExec, arithParse, hp, arithSimplify, hr, Out.ofFuel]
    have hs : (qK (fuel + 1)).simp ⟨loaded, ()⟩ [] t =
        ((qM (fuel + 1)).simplify (if loaded then shippedSimp id else noRules) t).bind fun r => .ok (⟨loaded, ()⟩, r) := rfl
    rw [hs]
    cases (qM (fuel + 1)).simplify (if loaded then shippedSimp id else noRules) t with
    | ok r => rcases r with _ | (_ | _ | _) <;> rfl
    | hang => rfl
    | ub => rfl
    | defect => rfl

/-- **C76**, violated: the calculator never answers when `(-2*3)'` is entered. -/
theorem C76_no_answer (fuel : Nat) : answer true fuel "(-2*3)'" = .hang := by
  cases fuel with
  | zero => kernel_rfl
  | succ n => rw [answer_eq input_negProd, if_pos rfl, C76_diverges]; rfl


/-! ## C77: errors -/

/-- `0/0` -/
def nan : Tree ℚ := .op o7 [.const 0 0, .const 0 2] 1
/-- `@5*0`, where the history is empty -/
def noAnswer : Tree ℚ := .op o6 [.op o1 [.const 5 1] 0, .const 0 3] 2

theorem means_const {L : Op → List ℚ → Except EvalErr ℚ} {σ : Str → Option ℚ} {u v : ℚ} {i : Nat}
    (h : Means L σ (.const u i) v) : v = u := by
  cases h
  rfl

theorem no_value {L : Op → List ℚ → Except EvalErr ℚ} {σ : Str → Option ℚ} {o : Op} {a b : Tree ℚ} {i : Nat}
    (h : ∀ u v w, Means L σ a u → Means L σ b v → L o [u, v] ≠ .ok w) : ∀ w, ¬ Means L σ (.op o [a, b] i) w := by
  intro w hw
  cases hw with
  | op hl hm ho =>
    rename_i vs
    match vs, hl with
    | [u, v], _ => exact h u v w (hm 0 (by simp)) (hm 1 (by simp)) ho

/-- **C77**, violated: `0/0` and `@5*0` have no value (division by zero; no such answer in the history), and without
rules an error is reported.  With the shipped rules the answer is 0. -/
theorem C77_hidden :
    (input "0/0" = .ok (some nan) ∧ (∀ σ v, ¬ Means qOp σ nan v) ∧
      answer false 200 "0/0" = .ok none ∧ answer true 200 "0/0" = .ok (some (.const 0 1))) ∧
    (input "@5*0" = .ok (some noAnswer) ∧ (∀ σ v, ¬ Means qOp σ noAnswer v) ∧
      answer false 200 "@5*0" = .ok none ∧ answer true 200 "@5*0" = .ok (some (.const 0 2))) := by
  refine ⟨⟨by kernel_rfl, fun σ => no_value ?_, by kernel_rfl, by kernel_rfl⟩,
    ⟨by kernel_rfl, fun σ => no_value ?_, by kernel_rfl, by kernel_rfl⟩⟩
  · intro u v w hu hv
    rw [means_const hu, means_const hv]
    have : qOp o7 [0, 0] = .error (.code .divisionByZero) := by kernel_rfl
    rw [this]
    intro h
    cases h
  · intro u v w hu hv
    exfalso
    cases hu with
    | op hl hm ho =>
      rename_i vs
      match vs, hl with
      | [x], _ =>
        have hx : x = 5 := means_const (hm 0 (by simp))
        rw [hx] at ho
        have : qOp o1 [5] = .error (.code .historyNotSet) := by kernel_rfl
        rw [this] at ho
        cases ho

/-- Errors are reported if no rule hides them. -/
example : answer true 200 "1/0" = .ok none := by kernel_rfl

/-! ## C78: derivatives -/

example : answer true 200 "(x^2)'" = .ok (some (.op o6 [.const 2 5, .var ['x'] 0 1] 5)) := by kernel_rfl
example : answer true 200 "(x*y)'" = .ok none := by kernel_rfl
example : answer true 200 "deriv(x^2, 2)" = .ok none := by kernel_rfl

/-- The derivative of the constant `pi` is refused, that of `2*pi` is 0. -/
example : answer true 200 "pi'" = .ok none ∧ answer true 200 "(2*pi)'" = .ok (some (.const 0 5)) :=
  ⟨by kernel_rfl, by kernel_rfl⟩

/-! ## C34: definitions -/

/-- The state after definitions. -/
def define (loaded : Bool) (fuel : Nat) (text : String) : Out (Session ℚ (World Unit) × Bool) := do
  let s0 ← fresh loaded
  definitionExec (qK fuel) s0 text.toList

/-- **C34**, violated: the definition `f(x,y)=(x*y)'` crashes with the shipped rules, although nothing crashes without them. -/
theorem C34_derivative : define true 200 "f(x,y)=(x*y)'" = .ub := by kernel_rfl

/-! ## C63: loading rules after definitions -/

/-- Loading the shipped rules in the state after a definition. -/
def loadAfter (text : String) : Out (Bool × Simp ℚ) := do
  let (s, _) ← define false 200 text
  Out.of (loadSimplification (parseEasy s.ctx decimal) (ruleParser id) (some shippedText) noRules)

/-- The two helper patterns in the state after a definition. -/
def helpersAfter (text : String) : Out (Option (Tree ℚ) × Option (Tree ℚ)) := do
  let (s, _) ← define false 200 text
  let a ← Out.of (parseEasy s.ctx decimal "x'".toList)
  let b ← Out.of (parseEasy s.ctx decimal "deriv(x, z)".toList)
  pure (a, b)

theorem load_eq {text : String} {a b : Option (Tree ℚ)} (h : helpersAfter text = .ok (a, b)) :
    loadAfter text = .ok (true, { shippedSimp id with
      derivBefore := a.bind fun t => (getPattern t []).toOption, derivAfter := b }) := by
  unfold helpersAfter at h
  unfold loadAfter
  obtain ⟨⟨s, r⟩, hd, h⟩ := Out.bind_eq_ok.1 h
  obtain ⟨a', ha, h⟩ := Out.bind_eq_ok.1 h
  obtain ⟨b', hb, h⟩ := Out.bind_eq_ok.1 h
  cases h
  rw [hd, Out.bind_ok]
  dsimp only
  unfold loadSimplification initSimplification
  dsimp only
  rw [Shipped.rulesAt_shipped]
  simp only [Out.of_eq_ok.1 ha, Out.of_eq_ok.1 hb, parse_malformed, Res.bind_ok, Res.pure_eq]
  rw [if_neg (by decide)]
  simp only [Res.bind_ok]
  rw [if_neg]
  · rfl
  · intro h
    omega

/-- **C63**, violated: after `x(a)=a` the rules are loaded without an error being reported, but then every
expression that is entered makes the program access invalid memory. -/
theorem C63_function : ∃ s1, loadAfter "x(a)=a" = .ok (true, s1) ∧
    (∀ fuel t, (qM fuel).simplify s1 t = .hang ∨ (qM fuel).simplify s1 t = .ub) ∧
    (qM 10).simplify s1 (.const 1 0) = .ub := by
  refine ⟨_, load_eq (a := none) (b := none) (by kernel_rfl), ?_, by kernel_rfl⟩
  intro fuel t
  have hw : ((qM fuel).withoutDerivative (shippedSimp id) (reduceConst (qM fuel).arith (qM fuel).varErr t []).1).Fine :=
    (qM fuel).applyAll_fine (fun k _ => (Shipped.fit id).safe k) _
  show (((qM fuel).withoutDerivative (shippedSimp id) (reduceConst (qM fuel).arith (qM fuel).varErr t []).1).bind _) = .hang ∨
    (((qM fuel).withoutDerivative (shippedSimp id) (reduceConst (qM fuel).arith (qM fuel).varErr t []).1).bind _) = .ub
  cases h : (qM fuel).withoutDerivative (shippedSimp id) (reduceConst (qM fuel).arith (qM fuel).varErr t []).1 with
  | hang => exact .inl rfl
  | ok u => exact .inr rfl
  | ub => exact .inr rfl
  | defect => rw [h] at hw; exact hw.elim

/-- The operator of the user's constant `x`. -/
def userX : Op := ⟨['x'], 58, .fixed 0, 255, .left, .function⟩

/-- `(y^2)'` -/
def ySquare : Tree ℚ := .op o2 [.op o8 [.var ['y'] 0 1, .const 2 3] 2] 5

/-- **C63**, violated: after `x=5` the shorthand for derivatives is no longer recognised: `(y^2)'` stays as it is. -/
theorem C63_constant : ∃ s1, loadAfter "x=5" = .ok (true, s1) ∧ (qM 100).simplify s1 ySquare = .ok (.ok ySquare) ∧
    (qM 100).simplify (shippedSimp id) ySquare = .ok (.ok (.op o6 [.const 2 5, .var ['y'] 0 1] 5)) := by
  refine ⟨_, load_eq (a := some (.op o2 [.op userX [] 0] 1)) (b := some (.op o3 [.op userX [] 2, .var ['z'] 0 5] 0)) (by kernel_rfl), ?_, ?_⟩
  · kernel_rfl
  · kernel_rfl

/-! ## Cases that meet the hypotheses -/

/-- The session after `f(a)=a^2`, with the shipped rules loaded. -/
def withF : Out (Session ℚ (World Unit)) := do
  let (s, _) ← define true 200 "f(a)=a^2"
  pure s

theorem withF_reach {s : Session ℚ (World Unit)} (h : withF = .ok s) : Reach (qK 200) TidyDef (fun _ => True) s := by
  unfold withF define fresh at h
  obtain ⟨⟨s1, b⟩, h1, h⟩ := Out.bind_eq_ok.1 h
  cases h
  obtain ⟨s0, h0, h1⟩ := Out.bind_eq_ok.1 h1
  have h0 := Out.of_eq_ok.1 h0
  refine .define (.start h0) ⟨by decide, ?_⟩ (by decide) h1
  have : (match initSession (V := ℚ) (⟨true, ()⟩ : World Unit) with
    | .ok s => s.ctx.ops.all fun p => decide (p.2.id < s.ctx.ops.length)
    | _ => false) = true := by kernel_rfl
  rw [h0] at this
  simpa using this

/-- C63: in this session the rules are loaded as in a fresh one. -/
example {s : Session ℚ (World Unit)} (h : withF = .ok s) : ∃ D, Sess s D ∧ D ≠ [] ∧
    (∀ d ∈ D, d.op.name ≠ ['x'] ∧ d.op.name ≠ ['z']) ∧ ∀ tok ∈ helperToks, (qK 200).strtod tok = none := by
  obtain ⟨D, hD⟩ := (withF_reach h).sess
  obtain ⟨as, h5, h6⟩ := hD.ctx.ops
  have key : (match withF with
    | .ok s => decide (58 < s.ctx.ops.length) && s.ctx.ops.all fun p => decide (p.2.name ≠ ['x'] ∧ p.2.name ≠ ['z'])
    | _ => false) = true := by kernel_rfl
  rw [h] at key
  simp only [Bool.and_eq_true, decide_eq_true_eq, List.all_eq_true] at key
  refine ⟨D, hD, ?_, ?_, by decide +kernel⟩
  · rintro rfl
    rw [h6] at key
    simp only [List.map_nil, List.zip_nil_right, List.append_nil] at key
    exact absurd key.1 (by decide +kernel)
  · intro d hd
    obtain ⟨k, hk⟩ := List.getElem?_of_mem hd
    have hlt : k < as.length := by
      rw [h5]
      simpa using (List.getElem?_eq_some_iff.1 hk).1
    refine key.2 (as[k], d.op) ?_
    rw [h6]
    refine List.mem_append_right _ (List.mem_of_getElem? (i := k) ?_)
    rw [List.getElem?_zip_eq_some]
    exact ⟨List.getElem?_eq_getElem hlt, by simp [hk]⟩

theorem withF_ok : ∃ s, withF = .ok s := by
  have key : (match withF with
    | .ok _ => true
    | _ => false) = true := by kernel_rfl
  cases h : withF with
  | ok s => exact ⟨s, rfl⟩
  | hang => rw [h] at key; cases key
  | ub => rw [h] at key; cases key
  | defect => rw [h] at key; cases key

/-- C34, C80: what is entered there. -/
example : DelimsOk "f(y)'".toList ∧ DelimsOk "g(x)".toList ∧ DelimsOk "f(x)'".toList ∧ (qK 200).fuel < sizeMax :=
  ⟨delimsOk_of (by decide +kernel), delimsOk_of (by decide +kernel), delimsOk_of (by decide +kernel), by decide⟩

theorem ySquare_builtIn : Verif.AllOps BuiltIn ySquare := by
  have h2 : BuiltIn o2 1 := ⟨⟨{ o2 with id := 0 }, by decide +kernel, rfl⟩, .inr rfl⟩
  have h8 : BuiltIn o8 2 := ⟨⟨{ o8 with id := 0 }, by decide +kernel, rfl⟩, .inr rfl⟩
  refine .op h2 fun c hc => ?_
  obtain rfl := List.mem_singleton.1 hc
  refine .op h8 fun c hc => ?_
  rcases List.mem_pair.1 hc with rfl | rfl
  · exact .var
  · exact .const

theorem ySquare_noIds : NoIds ySquare := by
  refine .op fun c hc => ?_
  obtain rfl := List.mem_singleton.1 hc
  refine .op fun c hc => ?_
  rcases List.mem_pair.1 hc with rfl | rfl
  · exact .var
  · exact .const

/-- C78, C79, C80: `(y^2)'`. -/
example : (ySquare.preorder []).length < (qM 100).fuel ∧ Loaded (shippedSimp (V := ℚ) id) ∧
    (match (qM 100).applyDerivatives (shippedSimp id) ySquare with
      | .ok (.ok _) => true
      | _ => false) = true ∧
    (qM 100).simplify (shippedSimp id) ySquare = .ok (.ok (.op o6 [.const 2 5, .var ['y'] 0 1] 5)) :=
  ⟨by decide, shipped_loaded _, by kernel_rfl, by kernel_rfl⟩

end Verif.SimplifyProps
