import Verif.Model.Evaluation
import Mathlib.Logic.Basic

/-!
# Evaluation in two arithmetics

A map from one arithmetic to another keeps results, if it keeps the operations, quotients perhaps only by numbers
`Z`.
-/

namespace Verif

variable {V W : Type}

/-- `h` keeps the operations; quotients by numbers in `Z`. -/
structure Arith.Hom (A : Arith V) (B : Arith W) (h : V → W) (Z : V → Prop) : Prop where
  ofInt : ∀ n, h (A.ofInt n) = B.ofInt n
  literal : ∀ q, h (A.literal q) = B.literal q
  infinity : h A.infinity = B.infinity
  add : ∀ a b, h (A.add a b) = B.add (h a) (h b)
  sub : ∀ a b, h (A.sub a b) = B.sub (h a) (h b)
  mul : ∀ a b, h (A.mul a b) = B.mul (h a) (h b)
  div : ∀ a b, Z b → h (A.div a b) = B.div (h a) (h b)
  neg : ∀ a, h (A.neg a) = B.neg (h a)
  eq : ∀ a b, A.eq a b = B.eq (h a) (h b)
  lt : ∀ a b, A.lt a b = B.lt (h a) (h b)
  le : ∀ a b, A.le a b = B.le (h a) (h b)
  isinf : ∀ a, A.isinf a = B.isinf (h a)
  toInt : ∀ a, A.toInt a = B.toInt (h a)
  toLong : ∀ a, A.toLong a = B.toLong (h a)
  pow : ∀ a b, Z a ∨ A.le b (A.ofInt 0) = false → h (A.pow a b) = B.pow (h a) (h b)
  fmod : ∀ a b, h (A.fmod a b) = B.fmod (h a) (h b)
  fn : ∀ f a, f ≠ .tgamma ∨ Z a → h (A.fn f a) = B.fn f (h a)
  zInt : ∀ n, Z (A.ofInt n)
  zAbs : ∀ a, Z (A.fn .fabs a)
  zLog : ∀ a, Z (A.fn .log a)
  zEq : ∀ a, A.eq a (A.ofInt 0) = false → Z a
  zLeft : ∀ a b, Z a → A.lt b a = true → Z (A.sub a b)
  zRight : ∀ a b, Z b → A.lt b a = false → Z (A.sub b a)
  zOne : ∀ i, A.le (A.ofInt 1) i = true → Z i
  one : A.le (A.ofInt 1) (A.ofInt 1) = true
  succ : ∀ i, A.le (A.ofInt 1) i = true → A.le (A.ofInt 1) (A.add i (A.ofInt 1)) = true
  two : A.le (A.ofInt 2) (A.ofInt 0) = false

namespace Arith.Hom
variable {A : Arith V} {B : Arith W} {h : V → W} {Z : V → Prop}

theorem foldl {f : V → V → V} {g : W → W → W} (hf : ∀ a b, h (f a b) = g (h a) (h b)) (l : List V) (i : V) :
    h (l.foldl f i) = (l.map h).foldl g (h i) := by
  induction l generalizing i with
  | nil => rfl
  | cons a l ih => rw [List.foldl_cons, ih, hf]; rfl

theorem sum (H : A.Hom B h Z) (l : List V) : h (A.sum l) = B.sum (l.map h) := by
  unfold Arith.sum; rw [foldl H.add, H.ofInt]

theorem prod (H : A.Hom B h Z) (l : List V) : h (A.prod l) = B.prod (l.map h) := by
  unfold Arith.prod; rw [foldl H.mul, H.ofInt]

theorem variance (H : A.Hom B h Z) (l : List V) : h (A.variance l) = B.variance (l.map h) := by
  unfold Arith.variance
  simp only [List.length_map]
  rw [H.div _ _ (H.zInt _), H.ofInt]
  congr 1
  rw [foldl (h := h) (g := fun res a => B.add res (B.pow (B.sub a (B.div (B.sum (l.map h)) (B.ofInt l.length))) (B.ofInt 2))), H.ofInt]
  intro a b
  rw [H.add, H.pow _ _ (.inr H.two), H.sub, H.div _ _ (H.zInt _), H.sum, H.ofInt, H.ofInt]

theorem euclidLoop (H : A.Hom B h Z) (fuel : Nat) (a b : V) (ha : Z a) (hb : Z b) :
    (A.euclidLoop fuel a b).map h = B.euclidLoop fuel (h a) (h b) ∧ ∀ g, A.euclidLoop fuel a b = some g → Z g := by
  induction fuel generalizing a b with
  | zero => exact ⟨rfl, fun g hg => by cases hg⟩
  | succ n ih =>
    rw [Arith.euclidLoop, Arith.euclidLoop, ← H.ofInt, ← H.eq, ← H.lt]
    split
    · exact ⟨rfl, fun g hg => by cases hg; exact ha⟩
    · split
      · next hl => rw [← H.sub]; exact ih _ _ (H.zLeft _ _ ha hl) hb
      · next hl => rw [← H.sub]; exact ih _ _ ha (H.zRight _ _ hb (by simpa using hl))

theorem euclid (H : A.Hom B h Z) (fuel : Nat) (a b : V) :
    (A.euclid fuel a b).map h = B.euclid fuel (h a) (h b) ∧ ∀ g, A.euclid fuel a b = some g → Z g := by
  unfold Arith.euclid
  have e : ∀ a, h (A.fn .fabs (A.fn .trunc a)) = B.fn .fabs (B.fn .trunc (h a)) := by
    intro a; rw [H.fn _ _ (.inl (by decide)), H.fn _ _ (.inl (by decide))]
  dsimp only
  rw [← e, ← e, ← H.ofInt, ← H.eq]
  split
  · exact ⟨rfl, fun g hg => by cases hg; exact H.zAbs _⟩
  · exact H.euclidLoop fuel _ _ (H.zAbs _) (H.zAbs _)

theorem binomialLoop (H : A.Hom B h Z) (n k : V) (fuel : Nat) (i res : V) (hi : A.le (A.ofInt 1) i = true) :
    (A.binomialLoop n k fuel i res).map h = B.binomialLoop (h n) (h k) fuel (h i) (h res) := by
  induction fuel generalizing i res with
  | zero => rfl
  | succ m ih =>
    rw [Arith.binomialLoop, Arith.binomialLoop, ← H.le]
    split
    · rw [ih _ _ (H.succ _ hi), H.add, H.div _ _ (H.zOne _ hi), H.mul, H.add, H.sub, H.ofInt]
    · rfl

theorem binomial (H : A.Hom B h Z) (fuel : Nat) (a b : V) : (A.binomial fuel a b).map h = B.binomial fuel (h a) (h b) := by
  unfold Arith.binomial
  have e : ∀ a, h (A.fn .fabs (A.fn .trunc a)) = B.fn .fabs (B.fn .trunc (h a)) := by
    intro a; rw [H.fn _ _ (.inl (by decide)), H.fn _ _ (.inl (by decide))]
  dsimp only
  rw [← e, ← e, ← H.ofInt, ← H.ofInt, ← H.ofInt, ← H.eq, ← H.mul, ← H.lt, ← H.sub]
  split
  · rfl
  · rw [H.binomialLoop _ _ _ _ _ H.one]
    split <;> rfl

theorem factorialLoop (H : A.Hom B h Z) (fuel : Nat) (i res : V) :
    (A.factorialLoop fuel i res).map h = B.factorialLoop fuel (h i) (h res) := by
  induction fuel generalizing i res with
  | zero => rfl
  | succ m ih =>
    rw [Arith.factorialLoop, Arith.factorialLoop, ← H.ofInt, ← H.lt]
    split
    · rw [ih, H.sub, H.mul]
    · rfl

theorem factorial (H : A.Hom B h Z) (fuel : Nat) (a : V) : (A.factorial fuel a).map h = B.factorial fuel (h a) := by
  unfold Arith.factorial
  rw [← H.isinf]
  split
  · rw [Option.map_some, H.infinity]
  · rw [H.factorialLoop, H.fn _ _ (.inl (by decide)), H.ofInt]

theorem fibonacci (H : A.Hom B h Z) (a : V) : (A.fibonacci a).map h = B.fibonacci (h a) := by
  unfold Arith.fibonacci
  rw [← H.toLong]
  split
  · rfl
  · split
    · split
      · rfl
      · split <;> simp only [Option.map_map, Function.comp_def, H.ofInt]
    · simp only [Option.map_map, Function.comp_def, H.ofInt]

theorem randomBetween (H : A.Hom B h Z) (r : Nat) (a b : V) : (A.randomBetween r a b).map h = B.randomBetween r (h a) (h b) := by
  unfold Arith.randomBetween
  have e : ∀ a, h (A.fn .trunc a) = B.fn .trunc (h a) := fun a => H.fn _ _ (.inl (by decide))
  dsimp only
  rw [← e, ← e, ← H.sub, ← H.toLong]
  split
  · rfl
  · split
    · rw [Option.map_some, H.ofInt]
    · rw [Option.map_some, H.add, H.ofInt]

end Arith.Hom

/-- A result mapped. -/
def mapOk {ε : Type} (h : V → W) : Except ε V → Except ε W
  | .ok v => .ok (h v)
  | .error e => .error e

theorem looped_map (h : V → W) (x : Option V) : mapOk h (looped x) = looped (x.map h) := by cases x <;> rfl

theorem defined_map (h : V → W) (x : Option V) : mapOk h (defined x) = defined (x.map h) := by cases x <;> rfl

theorem fromHistory_map (h : V → W) (hist : List V) (k : Nat) :
    mapOk h (fromHistory (historyGet hist k)) = fromHistory (historyGet (hist.map h) k) := by
  have : historyGet (hist.map h) k = (historyGet hist k).map h := by
    unfold historyGet
    simp only [List.length_map]
    split
    · rfl
    · rw [List.getElem?_map]
  rw [this]
  cases historyGet hist k <;> rfl

/-- Operators yield the same in both arithmetics; root and gamma for arguments in `Z`. -/
theorem evalOp_hom {A : Arith V} {B : Arith W} {h : V → W} {Z : V → Prop} (H : A.Hom B h Z) (hist : List V) (rnd fuel : Nat) (o : Op)
    (args : List V) (ho : o.id ≠ 16 ∧ o.id ≠ 50 ∨ ∀ a ∈ args, Z a) :
    mapOk h (evalOp A hist rnd fuel o args) = evalOp B (hist.map h) rnd fuel o (args.map h) := by
  have h1 : ∀ {f : V → Except EvalErr V} {g : W → Except EvalErr W}, (∀ a ∈ args, mapOk h (f a) = g (h a)) →
      mapOk h (arg1 f args) = arg1 g (args.map h) := by
    intro f g hf
    cases args with
    | nil => rfl
    | cons a l => exact hf a (by simp)
  have h2 : ∀ {f : V → V → Except EvalErr V} {g : W → W → Except EvalErr W},
      (∀ a ∈ args, ∀ b ∈ args, mapOk h (f a b) = g (h a) (h b)) → mapOk h (arg2 f args) = arg2 g (args.map h) := by
    intro f g hf
    rcases args with _ | ⟨a, _ | ⟨b, l⟩⟩
    · rfl
    · rfl
    · exact hf a (by simp) b (by simp)
  have ok : ∀ {v : V} {w : W}, h v = w → mapOk h (.ok v : Except EvalErr V) = .ok w := by rintro v w rfl; rfl
  have fn : ∀ f a, f ≠ .tgamma → h (A.fn f a) = B.fn f (h a) := fun f a hf => H.fn f a (.inl hf)
  unfold evalOp
  split
  all_goals first
    | rfl
    | (refine h1 (fun a _ => ok ?_); first
        | rfl | exact H.neg _ | exact fn _ _ (by decide))
    | (refine h2 (fun a _ b _ => ok ?_); first
        | exact H.add _ _ | exact H.sub _ _ | exact H.mul _ _ | exact H.fmod _ _)
    | exact fromHistory_map h _ _
    | (refine ok ?_; first
        | exact H.sum _ | exact H.prod _ | exact H.variance _ | exact H.literal _ | exact H.ofInt _)
    | skip
  · refine h1 fun a _ => ?_
    rw [← H.toInt]
    split
    · rfl
    · exact fromHistory_map h _ _
  · refine h2 fun a _ b _ => ?_
    rw [← H.ofInt, ← H.eq]
    split
    · rfl
    · next hz => exact ok (H.div _ _ (H.zEq _ (by simpa using hz)))
  · refine h2 fun a _ b _ => ?_
    simp only [← H.ofInt, ← H.eq, ← H.lt, ← H.le]
    split
    · rfl
    · next hz =>
      split
      · rfl
      · refine ok (H.pow _ _ ?_)
        rw [Bool.and_eq_true, not_and_or] at hz
        rcases hz with hz | hz
        · exact .inl (H.zEq _ (by simpa using hz))
        · exact .inr (by simpa using hz)
  · refine h2 fun a _ b _ => ?_
    rw [looped_map, H.binomial]
  · refine h1 fun a _ => ?_
    rw [looped_map, H.factorial]
  · refine h1 fun a _ => ok ?_
    rw [H.div _ _ (H.zInt _), H.ofInt]
  · next hid =>
    refine h2 fun a ha b hb => ?_
    rw [← H.ofInt, ← H.ofInt, ← H.le]
    split
    · have hz := ho.resolve_left (fun hc => hc.1 hid)
      refine ok ?_
      rw [H.pow _ _ (.inl (hz a ha)), H.div _ _ (hz b hb), H.ofInt]
    · rfl
  · refine h1 fun a _ => ?_
    rw [← H.ofInt, ← H.le]
    split
    · exact ok (fn _ _ (by decide))
    · rfl
  · refine h2 fun a _ b _ => ok ?_
    rw [H.div _ _ (H.zLog _), fn _ _ (by decide), fn _ _ (by decide)]
  · refine ok ?_
    rw [Arith.Hom.foldl (h := h) (g := fun res a => if B.lt res a = true then a else res), H.neg, H.infinity]
    intro a b
    rw [← H.lt]
    split <;> rfl
  · refine ok ?_
    rw [Arith.Hom.foldl (h := h) (g := fun res a => if B.lt a res = true then a else res), H.infinity]
    intro a b
    rw [← H.lt]
    split <;> rfl
  · refine h1 fun a _ => ok ?_
    rw [H.sub, fn _ _ (by decide)]
  · refine h1 fun a _ => ok ?_
    rw [← H.ofInt, ← H.ofInt, ← H.ofInt, ← H.lt, ← H.lt]
    split
    · rfl
    · split <;> rfl
  · refine ok ?_
    simp only [List.isEmpty_map, List.length_map]
    split
    · exact H.ofInt _
    · rw [H.div _ _ (H.zInt _), H.sum, H.ofInt]
  · refine h2 fun a _ b _ => ?_
    rw [looped_map, (H.euclid _ _ _).1]
  · refine h2 fun a _ b _ => ?_
    rw [looped_map, ← (H.euclid _ _ _).1]
    rcases hg : A.euclid fuel a b with _ | g
    · rfl
    · simp only [Option.map_some]
      rw [H.div _ _ ((H.euclid _ _ _).2 _ hg), fn _ _ (by decide), H.mul, fn _ _ (by decide), fn _ _ (by decide)]
  · refine h2 fun a _ b _ => ?_
    rw [defined_map, H.randomBetween]
  · refine h1 fun a _ => ?_
    rw [defined_map, H.fibonacci]
  · next hid =>
    refine h1 fun a ha => ok (H.fn _ _ (.inr ?_))
    exact ho.resolve_left (fun hc => hc.2 hid) a ha

end Verif
