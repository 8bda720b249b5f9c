import Verif.Model.Evaluation

/-!
# Evaluation stays within a set that is closed under the operations
-/

namespace Verif

variable {V : Type}

/-- `P` is closed under the operations of the arithmetic. -/
structure Arith.Closed (A : Arith V) (P : V → Prop) : Prop where
  ofInt : ∀ n, P (A.ofInt n)
  literal : ∀ q, P (A.literal q)
  infinity : P A.infinity
  add : ∀ a b, P a → P b → P (A.add a b)
  sub : ∀ a b, P a → P b → P (A.sub a b)
  mul : ∀ a b, P a → P b → P (A.mul a b)
  div : ∀ a b, P a → P b → P (A.div a b)
  neg : ∀ a, P a → P (A.neg a)
  pow : ∀ a b, P a → P b → P (A.pow a b)
  fmod : ∀ a b, P a → P b → P (A.fmod a b)
  fn : ∀ f a, P a → P (A.fn f a)

namespace Arith.Closed
variable {A : Arith V} {P : V → Prop}

theorem foldl {f : V → V → V} (hf : ∀ a b, P a → P b → P (f a b)) (l : List V) (hl : ∀ a ∈ l, P a) (i : V) (hi : P i) :
    P (l.foldl f i) := by
  induction l generalizing i with
  | nil => exact hi
  | cons a l ih => exact ih (fun b hb => hl b (List.mem_cons_of_mem _ hb)) _ (hf _ _ hi (hl a List.mem_cons_self))

theorem sum (hc : A.Closed P) (l : List V) (hl : ∀ a ∈ l, P a) : P (A.sum l) := foldl hc.add l hl _ (hc.ofInt 0)

theorem prod (hc : A.Closed P) (l : List V) (hl : ∀ a ∈ l, P a) : P (A.prod l) := foldl hc.mul l hl _ (hc.ofInt 1)

theorem variance (hc : A.Closed P) (l : List V) (hl : ∀ a ∈ l, P a) : P (A.variance l) :=
  hc.div _ _ (foldl (fun _ _ hr ha => hc.add _ _ hr (hc.pow _ _ (hc.sub _ _ ha (hc.div _ _ (hc.sum l hl) (hc.ofInt _)))
    (hc.ofInt 2))) l hl _ (hc.ofInt 0)) (hc.ofInt _)

theorem euclidLoop (hc : A.Closed P) (fuel : Nat) (a b : V) (ha : P a) (hb : P b) (v : V) (h : A.euclidLoop fuel a b = some v) : P v := by
  induction fuel generalizing a b with
  | zero => cases h
  | succ n ih =>
    rw [Arith.euclidLoop] at h
    split at h
    · cases h; exact ha
    · split at h
      · exact ih _ _ (hc.sub _ _ ha hb) hb h
      · exact ih _ _ ha (hc.sub _ _ hb ha) h

theorem euclid (hc : A.Closed P) (fuel : Nat) (a b : V) (ha : P a) (hb : P b) (v : V) (h : A.euclid fuel a b = some v) : P v := by
  unfold Arith.euclid at h
  dsimp only at h
  split at h
  · cases h; exact hc.fn _ _ (hc.fn _ _ hb)
  · exact hc.euclidLoop _ _ _ (hc.fn _ _ (hc.fn _ _ ha)) (hc.fn _ _ (hc.fn _ _ hb)) _ h

theorem binomialLoop (hc : A.Closed P) (n k : V) (hn : P n) (hk : P k) (fuel : Nat) (i res : V) (hi : P i) (hr : P res) (v : V)
    (h : A.binomialLoop n k fuel i res = some v) : P v := by
  induction fuel generalizing i res with
  | zero => cases h
  | succ m ih =>
    rw [Arith.binomialLoop] at h
    split at h
    · exact ih _ _ (hc.add _ _ hi (hc.ofInt 1)) (hc.div _ _ (hc.mul _ _ hr (hc.add _ _ (hc.sub _ _ hn hk) hi)) hi) h
    · cases h; exact hr

theorem binomial (hc : A.Closed P) (fuel : Nat) (a b : V) (ha : P a) (hb : P b) (v : V) (h : A.binomial fuel a b = some v) : P v := by
  unfold Arith.binomial at h
  dsimp only at h
  have hn := hc.fn .fabs _ (hc.fn .trunc _ ha)
  have hk := hc.fn .fabs _ (hc.fn .trunc _ hb)
  split at h
  · cases h; exact hc.ofInt 1
  · refine hc.binomialLoop _ _ hn ?_ _ _ _ (hc.ofInt 1) (hc.ofInt 1) _ h
    split
    · exact hc.sub _ _ hn hk
    · exact hk

theorem factorialLoop (hc : A.Closed P) (fuel : Nat) (i res : V) (hi : P i) (hr : P res) (v : V)
    (h : A.factorialLoop fuel i res = some v) : P v := by
  induction fuel generalizing i res with
  | zero => cases h
  | succ m ih =>
    rw [Arith.factorialLoop] at h
    split at h
    · exact ih _ _ (hc.sub _ _ hi (hc.ofInt 1)) (hc.mul _ _ hr hi) h
    · cases h; exact hr

theorem factorial (hc : A.Closed P) (fuel : Nat) (a : V) (ha : P a) (v : V) (h : A.factorial fuel a = some v) : P v := by
  unfold Arith.factorial at h
  split at h
  · cases h; exact hc.infinity
  · exact hc.factorialLoop _ _ _ (hc.fn _ _ ha) (hc.ofInt 1) _ h

theorem fibonacci (hc : A.Closed P) (a : V) (v : V) (h : A.fibonacci a = some v) : P v := by
  unfold Arith.fibonacci at h
  split at h
  · cases h
  · split at h
    · split at h
      · cases h
      · split at h
        all_goals
          obtain ⟨x, -, rfl⟩ := Option.map_eq_some_iff.1 h
          exact hc.ofInt _
    · obtain ⟨x, -, rfl⟩ := Option.map_eq_some_iff.1 h
      exact hc.ofInt _

theorem randomBetween (hc : A.Closed P) (r : Nat) (a b : V) (ha : P a) (v : V) (h : A.randomBetween r a b = some v) : P v := by
  unfold Arith.randomBetween at h
  dsimp only at h
  split at h
  · cases h
  · split at h
    · cases h; exact hc.ofInt _
    · cases h; exact hc.add _ _ (hc.ofInt _) (hc.fn _ _ ha)

end Arith.Closed

theorem looped_ok {x : Option V} {v : V} (h : looped x = .ok v) : x = some v := by
  cases x <;> simp_all [looped]

theorem defined_ok {x : Option V} {v : V} (h : defined x = .ok v) : x = some v := by
  cases x <;> simp_all [defined]

theorem fromHistory_ok {hist : List V} {k : Nat} {v : V} (h : fromHistory (historyGet hist k) = .ok v) : v ∈ hist := by
  unfold fromHistory at h
  split at h
  · next x hx =>
    cases h
    unfold historyGet at hx
    split at hx
    · cases hx
    · exact List.mem_of_getElem? hx
  · cases h

/-- What an operator is evaluated to is in the set if the arguments and the history are. -/
theorem evalOp_closed {A : Arith V} {P : V → Prop} (hc : A.Closed P) {hist : List V} (hh : ∀ a ∈ hist, P a) (rnd fuel : Nat) (o : Op)
    {args : List V} (ha : ∀ a ∈ args, P a) {v : V} (h : evalOp A hist rnd fuel o args = .ok v) : P v := by
  have h1 : ∀ {f : V → Except EvalErr V}, (∀ a v, P a → f a = .ok v → P v) → arg1 f args = .ok v → P v := by
    intro f hf he
    cases args with
    | nil => cases he
    | cons a l => exact hf a v (ha a List.mem_cons_self) he
  have h2 : ∀ {f : V → V → Except EvalErr V}, (∀ a b v, P a → P b → f a b = .ok v → P v) → arg2 f args = .ok v → P v := by
    intro f hf he
    rcases args with _ | ⟨a, _ | ⟨b, l⟩⟩
    · cases he
    · cases he
    · exact hf a b v (ha a (by simp)) (ha b (by simp)) he
  have sel : ∀ (c : V → V → Bool) (i : V), P i → P (args.foldl (fun res a => if c res a then a else res) i) := by
    intro c i hi
    refine Arith.Closed.foldl (P := P) (fun a b ha hb => ?_) args ha i hi
    split <;> assumption
  unfold evalOp at h
  split at h
  all_goals first
    | (cases h; done)
    | (refine h1 (fun a v ha h => ?_) h; cases h; first
        | exact ha | exact hc.neg _ ha | exact hc.fn _ _ ha | exact hc.div _ _ ha (hc.ofInt _)
        | exact hc.sub _ _ ha (hc.fn _ _ ha))
    | (refine h2 (fun a b v ha hb h => ?_) h; cases h; first
        | exact hc.add _ _ ha hb | exact hc.sub _ _ ha hb | exact hc.mul _ _ ha hb | exact hc.fmod _ _ ha hb
        | exact hc.div _ _ (hc.fn _ _ ha) (hc.fn _ _ hb))
    | (refine h1 (fun a v ha h => ?_) h; exact hc.factorial _ _ ha _ (looped_ok h))
    | (refine h1 (fun a v ha h => ?_) h; exact hc.fibonacci _ _ (defined_ok h))
    | (refine h2 (fun a b v ha hb h => ?_) h; exact hc.binomial _ _ _ ha hb _ (looped_ok h))
    | (refine h2 (fun a b v ha hb h => ?_) h; exact hc.euclid _ _ _ ha hb _ (looped_ok h))
    | (refine h2 (fun a b v ha hb h => ?_) h; exact hc.randomBetween _ _ _ ha _ (defined_ok h))
    | exact hh _ (fromHistory_ok h)
    | (cases h; first
        | exact hc.sum _ ha | exact hc.prod _ ha | exact hc.variance _ ha | exact hc.literal _ | exact hc.ofInt _
        | exact sel (fun res a => A.lt res a) _ (hc.neg _ hc.infinity) | exact sel (fun res a => A.lt a res) _ hc.infinity)
    | skip
  · refine h1 (fun a v ha h => ?_) h
    split at h
    · cases h
    · exact hh _ (fromHistory_ok h)
  · refine h2 (fun a b v ha hb h => ?_) h
    split at h
    · cases h
    · cases h; exact hc.div _ _ ha hb
  · refine h2 (fun a b v ha hb h => ?_) h
    split at h
    · cases h
    · split at h
      · cases h
      · cases h; exact hc.pow _ _ ha hb
  · refine h2 (fun a b v ha hb h => ?_) h
    split at h
    · cases h; exact hc.pow _ _ ha (hc.div _ _ (hc.ofInt _) hb)
    · cases h
  · refine h1 (fun a v ha h => ?_) h
    split at h
    · cases h; exact hc.fn _ _ ha
    · cases h
  · refine h1 (fun a v ha h => ?_) h
    cases h
    split
    · exact hc.ofInt _
    · split <;> exact hc.ofInt _
  · cases h
    split
    · exact hc.ofInt _
    · exact hc.div _ _ (hc.sum _ ha) (hc.ofInt _)
  · refine h2 (fun a b v ha hb h => ?_) h
    obtain ⟨g, hg, rfl⟩ := Option.map_eq_some_iff.1 (looped_ok h)
    exact hc.div _ _ (hc.fn _ _ (hc.mul _ _ (hc.fn _ _ ha) (hc.fn _ _ hb))) (hc.euclid _ _ _ ha hb _ hg)

end Verif
