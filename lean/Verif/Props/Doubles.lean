import Verif.Spec.Binary64
import Verif.Lemmas.Binary64
import Verif.Lemmas.EvalClosed
import Verif.Model.Printf
import Verif.Props.Evaluation

/-!
# C93: the numbers the calculator computes with

The arithmetic of the model is stated against the set of the doubles (`Binary64`), not by how it
rounds.
-/

namespace Verif.DoublesProps
open Verif Dbl DoubleSpec EvaluationProps

theorem round_fin {q x : ℚ} (h : Dbl.round q = fin x) : x = rounded q ∧ |rounded q| < 2 ^ (1024 : ℕ) := by
  rw [round_def] at h
  split at h
  · next hc => exact ⟨(Dbl.fin.inj h).symm, hc⟩
  · cases h

/-- **C93**: the result of a rounding is a double, and none is nearer to the exact result. -/
theorem C93_nearest {q x : ℚ} (h : Dbl.round q = fin x) : Binary64 x ∧ ∀ y, Binary64 y → |x - q| ≤ |y - q| := by
  obtain ⟨rfl, h2⟩ := round_fin h
  exact ⟨rounded_binary64 h2, fun y hy => rounded_best hy⟩

/-- **C93**: what is a double is exact. -/
theorem C93_exact (x : ℚ) : Dbl.round x = fin x ↔ Binary64 x :=
  ⟨fun h => (C93_nearest h).1, round_binary64⟩

/-- **C93**: of two that are equally near it is the even one. -/
theorem C93_even {q x y : ℚ} (h : Dbl.round q = fin x) (hy : Binary64 y) (hne : y ≠ x) (hd : |y - q| = |x - q|) :
    ∃ m e : ℤ, m % 2 = 0 ∧ x = m * 2 ^ e ∧ (y = (m + 1 : ℤ) * 2 ^ e ∨ y = (m - 1 : ℤ) * 2 ^ e) := by
  obtain ⟨rfl, -⟩ := round_fin h
  obtain ⟨n, hn⟩ : ∃ n : ℤ, y = n * 2 ^ lastBit q := by
    by_cases hc : 2 ^ (lastBit q + 52) ≤ |y| ∨ lastBit q = -1074
    · exact binary64_multiple hy hc
    · exfalso
      rcases eq_or_ne q 0 with rfl | hq
      · have : rounded 0 = 0 := by
          unfold rounded
          rw [zero_div, show (0 : ℚ) = ((0 : ℤ) : ℚ) by norm_num, halfEven_int]
          norm_num
        rw [this] at hd hne
        simp at hd
        exact hne hd
      rw [not_or, not_le] at hc
      have hl := lastBit_lower hq (lt_of_le_of_ne (le_lastBit q) (Ne.symm hc.2))
      have hp : (2 : ℚ) ^ (lastBit q + 52) = ((2 ^ 52 : ℤ) : ℚ) * 2 ^ lastBit q := by
        rw [add_comm, zpow_add₀ (by norm_num)]; norm_num
      obtain ⟨h1, -⟩ := hc
      have h2 := abs_lt.1 h1
      rcases le_total 0 q with h0 | h0
      · have h3 := rounded_nearest q (2 ^ 52)
        rw [← hp, ← hd] at h3
        rw [abs_of_nonneg h0] at hl
        rw [abs_of_nonpos (by linarith), abs_of_nonpos (by linarith)] at h3
        linarith
      · have h3 := rounded_nearest q (-2 ^ 52)
        have : (((-2 ^ 52 : ℤ) : ℚ)) * 2 ^ lastBit q = -2 ^ (lastBit q + 52) := by rw [hp]; push_cast; ring
        rw [this, ← hd] at h3
        rw [abs_of_nonpos h0] at hl
        rw [abs_of_nonneg (by linarith), abs_of_nonneg (by linarith)] at h3
        linarith
  subst hn
  have hp : (0 : ℚ) < 2 ^ lastBit q := zpow_pos (by norm_num) _
  unfold rounded at hne hd ⊢
  generalize hk : lastBit q = k at *
  have e : ∀ y : ℚ, |y * 2 ^ k - q| = |y - q / 2 ^ k| * 2 ^ k := by
    intro y
    rw [← abs_of_pos hp, ← abs_mul, abs_of_pos hp, sub_mul, div_mul_cancel₀ _ hp.ne']
  rw [e, e] at hd
  have hd := mul_right_cancel₀ hp.ne' hd
  generalize q / 2 ^ k = z at *
  have hz : (n : ℤ) ≠ halfEven z := fun hc => hne (by rw [hc])
  have he := halfEven_error z
  have he' : |(n : ℚ) - z| ≤ 1 / 2 := hd.le.trans he
  have h1 := abs_le.1 he
  have h2 := abs_le.1 he'
  have h3 : n < halfEven z + 2 := by
    have : (n : ℚ) < halfEven z + 2 := by linarith
    exact_mod_cast this
  have h4 : halfEven z - 2 < n := by
    have : (halfEven z : ℚ) - 2 < n := by linarith
    exact_mod_cast this
  refine ⟨halfEven z, k, ?_, rfl, ?_⟩
  · by_contra hodd
    have : halfEven z = n := by
      rcases (show n = halfEven z + 1 ∨ n = halfEven z - 1 by omega) with h5 | h5
      · refine Printf.halfEven_half (by omega) ?_ ?_
        · have : (n : ℚ) = halfEven z + 1 := by rw [h5]; push_cast; ring
          linarith
        · have : (n : ℚ) = halfEven z + 1 := by rw [h5]; push_cast; ring
          linarith
      · have h6 : (n : ℚ) = halfEven z - 1 := by rw [h5]; push_cast; ring
        have h7 : halfEven (-z) = -n := by
          refine Printf.halfEven_half (by omega) ?_ ?_
          · push_cast; linarith
          · push_cast; linarith
        rw [halfEven_neg] at h7
        omega
    exact hz this.symm
  · rcases (show n = halfEven z + 1 ∨ n = halfEven z - 1 by omega) with h5 | h5
    · left; rw [h5]
    · right; rw [h5]

/-- **C93**: infinite results, and their sign. -/
theorem C93_overflow (q : ℚ) (s : Bool) :
    Dbl.round q = inf s ↔ 2 ^ (1024 : ℕ) - 2 ^ (970 : ℕ) ≤ |q| ∧ s = decide (q < 0) := by
  have ho := rounded_over_abs q
  have hbig : (0 : ℚ) < 2 ^ (1024 : ℕ) := by positivity
  have hsign : 2 ^ (1024 : ℕ) ≤ |rounded q| → (rounded q < 0 ↔ q < 0) := by
    intro hb
    constructor
    · intro h
      by_contra hc
      have := rounded_nonneg (not_lt.1 hc)
      linarith
    · intro h
      have h1 := rounded_nonneg (q := -q) (by linarith)
      rw [rounded_neg] at h1
      rcases (show rounded q ≤ 0 by linarith).lt_or_eq with h2 | h2
      · exact h2
      · rw [h2, abs_zero] at hb
        exact absurd hb (not_le.2 hbig)
  rw [round_def]
  split
  · next h =>
    constructor
    · intro h; cases h
    · rintro ⟨h1, -⟩
      exact absurd (ho.2 h1) (not_le.2 h)
  · next h =>
    have hb := not_lt.1 h
    rw [Dbl.inf.injEq]
    constructor
    · rintro rfl
      exact ⟨ho.1 hb, by simp only [hsign hb]⟩
    · rintro ⟨-, rfl⟩
      simp only [hsign hb]

/-- It is never NaN. -/
theorem C93_number (q : ℚ) : Dbl.round q ≠ nan := by
  rw [round_def]
  split <;> intro h <;> cases h

/-- **C93**: it keeps the order. -/
theorem C93_monotone {q q' : ℚ} (h : q ≤ q') : Below (Dbl.round q) (Dbl.round q') := by
  rcases hx : Dbl.round q with x | s | _
  · rcases hy : Dbl.round q' with y | t | _
    · show x ≤ y
      by_contra hc
      obtain ⟨h1, h2⟩ := C93_nearest hx
      obtain ⟨h3, h4⟩ := C93_nearest hy
      rw [not_le] at hc
      have h5 : (x + y) / 2 ≤ q := by
        by_contra h6
        rw [not_le] at h6
        have := h2 y h3
        rw [abs_of_pos (by linarith : 0 < x - q)] at this
        rcases abs_cases (y - q) with ⟨e, _⟩ | ⟨e, _⟩ <;> linarith
      have h6 : q' ≤ (x + y) / 2 := by
        by_contra h7
        rw [not_le] at h7
        have := h4 x h1
        rw [abs_of_neg (by linarith : y - q' < 0)] at this
        rcases abs_cases (x - q') with ⟨e, _⟩ | ⟨e, _⟩ <;> linarith
      have : q = q' := by linarith
      subst this
      rw [hx] at hy
      cases hy
      exact lt_irrefl _ hc
    · obtain ⟨h1, h2⟩ := (C93_overflow q' t).1 hy
      show t = false
      rw [h2]
      by_contra hneg
      have hneg : q' < 0 := by simpa using hneg
      rw [abs_of_neg hneg] at h1
      have := (C93_overflow q true).2 ⟨by rw [abs_of_neg (h.trans_lt hneg)]; exact h1.trans (neg_le_neg h), by simpa using h.trans_lt hneg⟩
      rw [hx] at this
      cases this
    · exact absurd hy (C93_number _)
  · obtain ⟨h1, h2⟩ := (C93_overflow q s).1 hx
    have hpos : s = false → Dbl.round q' = inf false := by
      intro hs
      rw [hs] at h2
      have hq : 0 ≤ q := by simpa using h2.symm
      rw [abs_of_nonneg hq] at h1
      exact (C93_overflow q' false).2 ⟨by rw [abs_of_nonneg (hq.trans h)]; exact h1.trans h, by simpa using hq.trans h⟩
    cases s with
    | true =>
      rcases hy : Dbl.round q' with y | t | _
      · rfl
      · exact .inl rfl
      · exact absurd hy (C93_number _)
    | false =>
      rw [hpos rfl]
      exact .inr rfl
  · exact absurd hx (C93_number _)

/-- One tenth is not a double; half-way between two doubles the even one is taken; the least number that
overflows, and the greatest that does not. -/
example : Dbl.round (1 / 10) = fin (3602879701896397 / 2 ^ 55) ∧ Dbl.round (2 ^ 53 + 1) = fin (2 ^ 53) ∧
    Dbl.round (2 ^ 53 + 3) = fin (2 ^ 53 + 4) ∧ Dbl.round (-(2 ^ 53 + 3)) = fin (-(2 ^ 53 + 4)) ∧
    Dbl.round (2 ^ 1024 - 2 ^ 970) = inf false ∧ Dbl.round (1 / 2 ^ 1075) = fin 0 ∧
    Dbl.round (3 / 2 ^ 1075) = fin (1 / 2 ^ 1073) := by
  refine ⟨?_, ?_, ?_, ?_, ?_, ?_, ?_⟩ <;> decide +kernel

/-- The hypotheses of `C93_even` are met. -/
example : Binary64 (2 ^ 53 + 2) ∧ Dbl.round (2 ^ 53 + 1) = fin (2 ^ 53) ∧ (2 ^ 53 + 2 : ℚ) ≠ 2 ^ 53 ∧
    |(2 ^ 53 + 2 : ℚ) - (2 ^ 53 + 1)| = |(2 ^ 53 : ℚ) - (2 ^ 53 + 1)| :=
  ⟨⟨2 ^ 52 + 1, 1, by norm_num, by norm_num, by norm_num, by norm_num⟩, by decide +kernel, by norm_num, by norm_num⟩

/-- **C93**, order: `==`, `<` and `<=` of C are those of the order with the infinities as extremes; with NaN they are false. -/
theorem C93_order (a b : Dbl) :
    (Dbl.lt a b = true ↔ Below a b ∧ ¬ Below b a) ∧ (Dbl.eq a b = true ↔ Below a b ∧ Below b a) ∧
    (Dbl.le a b = true ↔ Below a b) := by
  cases a <;> cases b <;> simp [Dbl.lt, Dbl.eq, Dbl.le, Below]
  · exact ⟨fun h => h.le, ⟨fun h => ⟨h.le, h.ge⟩, fun h => le_antisymm h.1 h.2⟩, le_iff_lt_or_eq.symm⟩
  · rename_i s t
    cases s <;> cases t <;> simp

/-- The order is one: of numbers that are not NaN. -/
theorem below_order :
    (∀ a, a ≠ nan ↔ Below a a) ∧ (∀ a b, a ≠ nan → b ≠ nan → Below a b ∨ Below b a) ∧
    (∀ a b, Below a b → Below b a → a = b) ∧ ∀ a b c, Below a b → Below b c → Below a c := by
  refine ⟨?_, ?_, ?_, ?_⟩
  · intro a; cases a <;> simp [Below]
  · intro a b
    cases a <;> cases b <;> simp [Below]
    · exact le_total _ _
    · rename_i s t; cases s <;> cases t <;> simp
  · intro a b
    cases a <;> cases b <;> simp [Below]
    · exact fun h1 h2 => le_antisymm h1 h2
    · rename_i s t; cases s <;> cases t <;> simp
  · intro a b c
    rcases a with a | (_ | _) | _ <;> rcases b with b | (_ | _) | _ <;> rcases c with c | (_ | _) | _ <;> simp [Below]
    exact fun h1 h2 => h1.trans h2

example : Below (fin 3) (inf false) ∧ Below (inf true) (fin 3) ∧ ¬ Below nan nan ∧ Dbl.lt (inf false) (inf false) = false := by
  simp [Below, Dbl.lt]

/-! ## Results are doubles -/

/-- The functions of the C library return doubles. -/
structure DoubleLib (L : Lib) : Prop where
  pow : ∀ a b, IsDouble a → IsDouble b → IsDouble (L.pow a b)
  fmod : ∀ a b, IsDouble a → IsDouble b → IsDouble (L.fmod a b)
  fn : ∀ f a, IsDouble a → IsDouble (L.fn f a)

theorem round_isDouble (q : ℚ) : IsDouble (Dbl.round q) := by
  rcases hx : Dbl.round q with x | s | _
  · exact (C93_nearest hx).1
  · trivial
  · trivial

theorem truncQ_near (q : ℚ) : |(truncQ q : ℚ) - q| ≤ 1 := by
  unfold truncQ
  split
  · have h1 := Int.floor_le q
    have h2 := Int.lt_floor_add_one q
    rw [abs_le]; constructor <;> linarith
  · have h1 := Int.le_ceil q
    have h2 := Int.ceil_lt_add_one q
    rw [abs_le]; constructor <;> linarith

theorem roundQ_near (q : ℚ) : |(roundQ q : ℚ) - q| ≤ 1 / 2 := by
  unfold roundQ
  split
  · have h1 := Int.floor_le (q + 1 / 2)
    have h2 := Int.lt_floor_add_one (q + 1 / 2)
    rw [abs_le]; constructor <;> linarith
  · have h1 := Int.le_ceil (q - 1 / 2)
    have h2 := Int.ceil_lt_add_one (q - 1 / 2)
    rw [abs_le]; constructor <;> linarith

theorem roundQ_int (n : ℤ) : roundQ n = n := by
  unfold roundQ
  split
  · rw [Int.floor_eq_iff]; constructor <;> linarith
  · rw [Int.ceil_eq_iff]; constructor <;> linarith

theorem arith_closed {L : Lib} (hL : DoubleLib L) : (arith Dbl.round L).Closed IsDouble where
  ofInt n := round_isDouble _
  literal q := round_isDouble _
  infinity := trivial
  add a b _ _ := by
    show IsDouble (Dbl.add Dbl.round a b)
    cases a <;> cases b <;> simp only [Dbl.add] <;> first | exact round_isDouble _ | trivial | (split <;> trivial)
  sub a b _ _ := by
    show IsDouble (Dbl.add Dbl.round a (Dbl.neg b))
    cases a <;> cases b <;> simp only [Dbl.add, Dbl.neg] <;> first | exact round_isDouble _ | trivial | (split <;> trivial)
  mul a b _ _ := by
    show IsDouble (Dbl.mul Dbl.round a b)
    cases a <;> cases b <;> simp only [Dbl.mul] <;> first | exact round_isDouble _ | trivial | (split <;> trivial)
  div a b _ _ := by
    show IsDouble (Dbl.div Dbl.round a b)
    cases a <;> cases b <;> simp only [Dbl.div]
    · split
      · split <;> trivial
      · exact round_isDouble _
    all_goals first | trivial | exact binary64_zero
  neg a h := by
    show IsDouble (Dbl.neg a)
    cases a with
    | fin q => exact Binary64.neg h
    | inf s => trivial
    | nan => trivial
  pow := hL.pow
  fmod := hL.fmod
  fn f a h := by
    have key : ∀ g : ℚ → ℤ, (∀ n : ℤ, g n = n) → (∀ q, |(g q : ℚ) - q| ≤ 1) → IsDouble (Dbl.toInteger g a) := by
      intro g h1 h2
      cases a with
      | fin q => exact binary64_toInteger h1 h2 h
      | inf s => trivial
      | nan => trivial
    have hfl : ∀ q : ℚ, |((⌊q⌋ : ℤ) : ℚ) - q| ≤ 1 := by
      intro q
      have h1 := Int.floor_le q
      have h2 := Int.lt_floor_add_one q
      rw [abs_le]; constructor <;> linarith
    have hce : ∀ q : ℚ, |((⌈q⌉ : ℤ) : ℚ) - q| ≤ 1 := by
      intro q
      have h1 := Int.le_ceil q
      have h2 := Int.ceil_lt_add_one q
      rw [abs_le]; constructor <;> linarith
    cases f
    case trunc => exact key truncQ truncQ_int truncQ_near
    case floor => exact key Int.floor Int.floor_intCast hfl
    case ceil => exact key Int.ceil Int.ceil_intCast hce
    case round => exact key roundQ roundQ_int (fun q => (roundQ_near q).trans (by norm_num))
    case fabs =>
      show IsDouble (Dbl.abs a)
      cases a with
      | fin q =>
        show Binary64 |q|
        rcases abs_choice q with e | e <;> rw [e]
        · exact h
        · exact Binary64.neg h
      | inf s => trivial
      | nan => trivial
    all_goals exact hL.fn _ _ h

/-- **C93**: every operator of the calculator yields a double, if the arguments and the history are doubles and the functions of
the C library return doubles. -/
theorem C93_operators {L : Lib} (hL : DoubleLib L) {hist : List Dbl} (hh : ∀ a ∈ hist, IsDouble a) (rnd fuel : ℕ) (o : Op)
    {args : List Dbl} (ha : ∀ a ∈ args, IsDouble a) {v : Dbl} (h : evalOp (arith Dbl.round L) hist rnd fuel o args = .ok v) :
    IsDouble v :=
  evalOp_closed (arith_closed hL) hh rnd fuel o ha h

mutual
/-- The constants of an expression are doubles. -/
def DoubleTree : Tree Dbl → Prop
  | .const v _ => IsDouble v
  | .var _ _ _ => True
  | .op _ cs _ => DoubleTrees cs
def DoubleTrees : List (Tree Dbl) → Prop
  | [] => True
  | c :: cs => DoubleTree c ∧ DoubleTrees cs
end

mutual
/-- **C93**: and so does every expression. -/
theorem C93_expressions {L : Lib} (hL : DoubleLib L) {hist : List Dbl} (hh : ∀ a ∈ hist, IsDouble a) (rnd fuel : ℕ) (e : EvalErr) :
    ∀ (t : Tree Dbl) (p : Path) (v : Dbl), DoubleTree t →
      treeReduce (evalOp (arith Dbl.round L) hist rnd fuel) e t p = .ok v → IsDouble v
  | .const w _, p, v, ht, h => by
    rw [treeReduce] at h
    cases h
    exact ht
  | .var _ _ _, p, v, ht, h => by
    rw [treeReduce] at h
    cases h
  | .op o cs _, p, v, ht, h => by
    rw [treeReduce] at h
    split at h
    · cases h
    · next args ha =>
      split at h
      · cases h
      · next w hw =>
        cases h
        exact C93_operators hL hh rnd fuel o (C93_arguments hL hh rnd fuel e cs p 0 args ht ha) hw
/-- The arguments of an operator. -/
theorem C93_arguments {L : Lib} (hL : DoubleLib L) {hist : List Dbl} (hh : ∀ a ∈ hist, IsDouble a) (rnd fuel : ℕ) (e : EvalErr) :
    ∀ (cs : List (Tree Dbl)) (p : Path) (k : ℕ) (vs : List Dbl), DoubleTrees cs →
      reduceArgs (evalOp (arith Dbl.round L) hist rnd fuel) e cs p k = .ok vs → ∀ a ∈ vs, IsDouble a
  | [], p, k, vs, ht, h => by
    rw [reduceArgs] at h
    cases h
    simp
  | c :: cs, p, k, vs, ht, h => by
    rw [reduceArgs] at h
    split at h
    · cases h
    · next v hv =>
      split at h
      · cases h
      · next ws hw =>
        cases h
        intro a ha
        rcases List.mem_cons.1 ha with rfl | ha
        · exact C93_expressions hL hh rnd fuel e c _ _ ht.1 hv
        · exact C93_arguments hL hh rnd fuel e cs p (k + 1) _ ht.2 hw a ha
end

/-- **C93**: what is typed in is read as a double. -/
theorem C93_typed (s : Str) (v : Dbl) (h : Printf.strtod s = some v) : IsDouble v := by
  unfold Printf.strtod at h
  dsimp only at h
  split at h
  · cases h; trivial
  · split at h
    · cases h; trivial
    · split at h
      · cases h; exact round_isDouble _
      · split at h
        · cases h; exact round_isDouble _
        · cases h

/-- A library with the exact square, and what `1/3 + ans` is computed to with 0.1 in the history. -/
example : ∃ (L : Lib) (o₁ o₂ o₃ : Op) (v : ℚ), DoubleLib L ∧ Builtin "/" .infix o₁ ∧ Builtin "+" .infix o₂ ∧ Builtin "ans" .function o₃ ∧
    treeReduce (evalOp (arith Dbl.round L) [Dbl.round (1 / 10)] 0 0) (.code .variableEncountered)
      (.op o₂ [.op o₁ [.const (fin 1) 0, .const (fin 3) 0] 0, .op o₃ [] 0] 0) [] = .ok (fin v) ∧ v ≠ 13 / 30 := by
  obtain ⟨o₁, h₁⟩ := builtin_exists (name := "/") (pl := .infix) (by decide +kernel)
  obtain ⟨o₂, h₂⟩ := builtin_exists (name := "+") (pl := .infix) (by decide +kernel)
  obtain ⟨o₃, h₃⟩ := builtin_exists (name := "ans") (pl := .function) (by decide +kernel)
  let L : Lib := ⟨fun _ _ => nan, fun _ _ => nan, fun _ _ => nan⟩
  refine ⟨L, o₁, o₂, o₃, 7806239354108860 / 2 ^ 54, ⟨fun _ _ _ _ => trivial, fun _ _ _ _ => trivial, fun _ _ _ => trivial⟩,
    h₁, h₂, h₃, ?_, by norm_num⟩
  have e₁ : evalOp (arith Dbl.round L) [Dbl.round (1 / 10)] 0 0 o₁ [fin 1, fin 3] = .ok (fin (6004799503160661 / 2 ^ 54)) := by
    unfold evalOp
    rw [h₁.id (k := 7) (by decide +kernel)]
    decide +kernel
  have e₃ : evalOp (arith Dbl.round L) [Dbl.round (1 / 10)] 0 0 o₃ [] = .ok (Dbl.round (1 / 10)) := by
    unfold evalOp
    rw [h₃.id (k := 57) (by decide +kernel)]
    rfl
  have e₂ : evalOp (arith Dbl.round L) [Dbl.round (1 / 10)] 0 0 o₂ [fin (6004799503160661 / 2 ^ 54), Dbl.round (1 / 10)] =
      .ok (fin (7806239354108860 / 2 ^ 54)) := by
    unfold evalOp
    rw [h₂.id (k := 4) (by decide +kernel)]
    decide +kernel
  simp only [treeReduce, reduceArgs, e₁, e₃, e₂]

end Verif.DoublesProps
