import Verif.Lemmas.Printf
import Verif.Spec.Printf
import Verif.Props.PrinterRounded

/-!
# Numbers are written and read back (C89)
-/

namespace Verif.PrintfProps
open Verif Printf PrintfSpec PrinterProps

theorem decimal_isDigit {c : Char} : isDigit c = true ↔ isDecimal c = true ∨ c = '.' := by
  simp [isDigit, isDecimal]

theorem general10_pos {q : ℚ} (hq : 0 < q) : general10 (.fin q) = general q := by
  simp only [general10, if_neg hq.ne', minus, if_neg hq.le.not_gt, List.nil_append, abs_of_pos hq]

/-- **C89.** A constant is written with digits and a point alone exactly if it is zero, or positive and neither too small nor too
large; negative ones have a sign, others an exponent. -/
theorem C89_style (q : ℚ) : (∀ c ∈ general10 (.fin q), isDigit c = true) ↔ Ordinary q := by
  rcases lt_trichotomy q 0 with hq | rfl | hq
  · constructor
    · intro h
      have := h '-' (by simp [general10, hq.ne, minus, hq])
      exact absurd this (by decide)
    · rintro (h | h)
      · exact absurd h hq.ne
      · have : (0 : ℚ) < 1 / 10 ^ 4 - 5 / 10 ^ 15 := by norm_num
        linarith [h.1]
  · exact ⟨fun _ => .inl rfl, fun _ => by decide⟩
  · have hiff : Ordinary q ↔ (-4 ≤ (sig10 q).2 ∧ (sig10 q).2 < 10) := by
      rw [sig10_range hq]
      exact or_iff_right hq.ne'
    rw [hiff, general10_pos hq]
    constructor
    · intro h
      by_contra hx
      have he : ∃ c ∈ general q, c = 'e' := by
        refine ⟨'e', ?_, rfl⟩
        unfold general
        dsimp only
        rw [if_neg hx, List.mem_append]
        right
        unfold exponent
        split <;> simp
      obtain ⟨c, hc, rfl⟩ := he
      exact absurd (h _ hc) (by decide)
    · intro hx c hc
      obtain ⟨a, b, h1, -, h2, h3, -⟩ := general_parts hx (sig10_spec hq).2.1
      rw [h1] at hc
      rw [decimal_isDigit]
      rcases pointed_mem hc with h | h | h
      · exact .inl (h2 c h)
      · exact .inr h
      · exact .inl (h3 c h)

/-- The number behind a text with ten digits. -/
theorem read_general {q : ℚ} (hq : 0 < q) (ho : Ordinary q) :
    strtod (general10 (.fin q)) = some (Dbl.round ((sig10 q).1 * 10 ^ ((sig10 q).2 - 9))) := by
  have hx := (sig10_range hq).2 (ho.resolve_left hq.ne')
  obtain ⟨a, b, h1, h0, h2, h3, h4⟩ := general_parts hx (sig10_spec hq).2.1
  rw [general10_pos hq, h1, strtod_pointed h0 h2 h3, h4]

/-- Doubles have more than ten digits. -/
theorem round_near {m : ℕ} {x : ℤ} (h1 : 10 ^ 9 ≤ m) (h2 : m < 10 ^ 10) (hx : -4 ≤ x ∧ x < 10) :
    ∃ w, Dbl.round (m * 10 ^ (x - 9)) = .fin w ∧ 0 < w ∧ sig10 w = (m, x) := by
  have hu := pow10 (x - 9)
  have h1' : (10 ^ 9 : ℚ) ≤ m := by exact_mod_cast h1
  have h2' : (m : ℚ) ≤ 10 ^ 10 := by exact_mod_cast h2.le
  have e10 : (10 : ℚ) ^ (x - 9) = 10 * 10 ^ (x - 10) := by
    have := pow10_shift (x - 10) 1
    rw [pow_one] at this
    rw [← this]; congr 1; push_cast; omega
  have hd : (0 : ℚ) < m * 10 ^ (x - 9) := by positivity
  have hdlo : (10 : ℚ) ^ (-5 : ℤ) ≤ m * 10 ^ (x - 9) := by
    have : (10 : ℚ) ^ (-14 : ℤ) ≤ 10 ^ (x - 9) := zpow_le_zpow_right₀ (by norm_num) (by omega)
    calc (10 : ℚ) ^ (-5 : ℤ) = 10 ^ 9 * 10 ^ (-14 : ℤ) := by norm_num [zpow_neg]
      _ ≤ m * 10 ^ (x - 9) := mul_le_mul h1' this (pow10 _).le (by positivity)
  have hdhi : (m : ℚ) * 10 ^ (x - 9) ≤ 10 ^ 10 := by
    have : (10 : ℚ) ^ (x - 9) ≤ 10 ^ (0 : ℤ) := zpow_le_zpow_right₀ (by norm_num) (by omega)
    rw [zpow_zero] at this
    calc (m : ℚ) * 10 ^ (x - 9) ≤ 10 ^ 10 * 1 := mul_le_mul h2' this (pow10 _).le (by positivity)
      _ = 10 ^ 10 := mul_one _
  have hbig : |(m : ℚ) * 10 ^ (x - 9)| ≤ 2 ^ (1023 : ℕ) := by
    rw [abs_of_pos hd]
    refine hdhi.trans ?_
    calc (10 : ℚ) ^ 10 ≤ 2 ^ 34 := by norm_num
      _ ≤ 2 ^ (1023 : ℕ) := pow_le_pow_right₀ (by norm_num) (by norm_num)
  obtain ⟨w, hw, herr⟩ := Dbl.round_error _ hbig
  rw [abs_of_pos hd, max_eq_left] at herr
  · have hsmall : |w - m * 10 ^ (x - 9)| ≤ 10 ^ (x - 10) / 4 := by
      refine herr.trans ?_
      rw [e10]
      have hv := pow10 (x - 10)
      have : (2 : ℚ) ^ (-53 : ℤ) ≤ 1 / 10 ^ 15 := by norm_num [zpow_neg]
      have hmv : (m : ℚ) * (10 * 10 ^ (x - 10)) ≤ 10 ^ 11 * 10 ^ (x - 10) := by nlinarith
      calc (m : ℚ) * (10 * 10 ^ (x - 10)) * 2 ^ (-53 : ℤ) ≤ 10 ^ 11 * 10 ^ (x - 10) * (1 / 10 ^ 15) :=
            mul_le_mul hmv this (zpow_pos (by norm_num) _).le (by positivity)
        _ ≤ 10 ^ (x - 10) / 4 := by linarith
    refine ⟨w, hw, ?_, sig10_near h1 h2 hsmall⟩
    have hv := pow10 (x - 10)
    have := (abs_le.1 hsmall).1
    rw [e10] at this
    nlinarith
  · refine le_trans ?_ (mul_le_mul_of_nonneg_right hdlo (zpow_pos (by norm_num) _).le)
    have : (2 : ℚ) ^ (-17 : ℤ) ≤ 10 ^ (-5 : ℤ) := by norm_num [zpow_neg]
    calc (2 : ℚ) ^ (-1075 : ℤ) ≤ 2 ^ (-70 : ℤ) := zpow_le_zpow_right₀ (by norm_num) (by norm_num)
      _ = 2 ^ (-17 : ℤ) * 2 ^ (-53 : ℤ) := by rw [← zpow_add₀ (by norm_num)]; norm_num
      _ ≤ _ := mul_le_mul_of_nonneg_right this (zpow_pos (by norm_num) _).le

theorem ordinary_of {q w : ℚ} (hq : 0 < q) (hw : 0 < w) (h : sig10 w = sig10 q) (ho : Ordinary q) : Ordinary w := by
  have hx := (sig10_range hq).2 (ho.resolve_left hq.ne')
  rw [← h] at hx
  exact .inr ((sig10_range hw).1 hx)

/-- **C89.** What is written of an ordinary number is read as the double next to the number rounded to ten digits, and that
one is written in the same way: reading what was written changes nothing that is visible. -/
theorem C89_read {q : ℚ} (ho : Ordinary q) : ∃ d w, Rounds q d ∧ Dbl.round d = .fin w ∧
    strtod (general10 (.fin q)) = some (.fin w) ∧ Ordinary w ∧ general10 (.fin w) = general10 (.fin q) := by
  have hnn : 0 ≤ q := by
    rcases ho with h | h
    · exact h.ge
    · have : (0 : ℚ) < 1 / 10 ^ 4 - 5 / 10 ^ 15 := by norm_num
      linarith [h.1]
  rcases hnn.eq_or_lt with rfl | hq
  · refine ⟨0, 0, ⟨⟨0, 0, by norm_num, by simp⟩, by simp⟩, by simpa using Dbl.round_int (n := 0) (by simp), ?_, .inl rfl, rfl⟩
    have : strtod (general10 (.fin 0)) = some (Dbl.round ((0 : ℤ) : ℚ)) := by decide +kernel
    rw [this, Dbl.round_int (by simp)]
    simp
  · obtain ⟨h1, h2, h3⟩ := sig10_spec hq
    have hx := (sig10_range hq).2 (ho.resolve_left hq.ne')
    obtain ⟨w, hw, hw0, hs⟩ := round_near h1 h2 hx
    refine ⟨_, w, ⟨⟨_, _, h2, rfl⟩, h3⟩, hw, by rw [read_general hq ho, hw], ordinary_of hq hw0 hs ho, ?_⟩
    rw [general10_pos hw0, general10_pos hq]
    unfold general
    rw [hs]

/-- **C89.** Numbers that were entered with at most ten digits come back exactly: if a double is the one next to such a number,
it is what is read of its text. -/
theorem C89_exact {d q : ℚ} (hd : TenDigits d) (h1 : 1 / 10 ^ 4 ≤ d) (h2 : d < 10 ^ 10) (hr : Dbl.round d = .fin q) :
    strtod (general10 (.fin q)) = some (.fin q) := by
  obtain ⟨n, z, hn, rfl⟩ := hd
  have hpos : (0 : ℚ) < n * 10 ^ z := lt_of_lt_of_le (by norm_num) h1
  have hn0 : n ≠ 0 := by
    rintro rfl
    simp at hpos
  obtain ⟨s1, s2, -⟩ := sig10_spec hpos
  have he := sig10_exact (z := z) hn0 hn
  have hx : -4 ≤ (sig10 ((n : ℚ) * 10 ^ z)).2 ∧ (sig10 ((n : ℚ) * 10 ^ z)).2 < 10 := by
    have s1' : (10 ^ 9 : ℚ) ≤ (sig10 ((n : ℚ) * 10 ^ z)).1 := by exact_mod_cast s1
    have s2' : ((sig10 ((n : ℚ) * 10 ^ z)).1 : ℚ) < 10 ^ 10 := by exact_mod_cast s2
    rw [← he] at h1 h2
    generalize (sig10 ((n : ℚ) * 10 ^ z)).2 = x at *
    generalize (sig10 ((n : ℚ) * 10 ^ z)).1 = m at *
    constructor
    · by_contra hlt
      have : (10 : ℚ) ^ (x - 9) ≤ 10 ^ (-14 : ℤ) := zpow_le_zpow_right₀ (by norm_num) (by omega)
      have h14 : (10 : ℚ) ^ (-14 : ℤ) = 1 / 10 ^ 14 := by norm_num [zpow_neg]
      rw [h14] at this
      have h3 : (m : ℚ) * 10 ^ (x - 9) < 10 ^ 10 * (1 / 10 ^ 14) :=
        lt_of_le_of_lt (mul_le_mul_of_nonneg_left this (Nat.cast_nonneg m)) (mul_lt_mul_of_pos_right s2' (by norm_num))
      norm_num at h1 h3
      linarith
    · by_contra hge
      have : (10 : ℚ) ^ (1 : ℤ) ≤ 10 ^ (x - 9) := zpow_le_zpow_right₀ (by norm_num) (by omega)
      rw [zpow_one] at this
      have h3 : (10 : ℚ) ^ 9 * 10 ≤ m * 10 ^ (x - 9) := mul_le_mul s1' this (by norm_num) (by positivity)
      norm_num at h2 h3
      linarith
  obtain ⟨w, hw, hw0, hs⟩ := round_near s1 s2 hx
  rw [he, hr] at hw
  cases hw
  have ho : Ordinary q := .inr ((sig10_range hw0).1 (by rw [hs]; exact hx))
  rw [read_general hw0 ho, hs]
  dsimp only
  rw [he, hr]

/-- **C89.** Integers below 10^10 are written with their digits. -/
theorem C89_integers {n : ℕ} (h : n < 10 ^ 10) : general10 (.fin n) = (toString n).toList := by
  have e : (toString n).toList = Nat.toDigits 10 n := by
    show (Nat.repr n).toList = _
    exact Nat.toList_repr
  rw [e]
  rcases Nat.eq_zero_or_pos n with rfl | h0
  · rfl
  · rw [general10_pos (by exact_mod_cast h0), general_nat h0.ne' h]

/-- **C89.** The numbers of a table have ten places behind the point, and are the nearest ones. -/
theorem C89_fixed {q : ℚ} (hq : 0 ≤ q) : ∃ n : ℕ, |(n : ℚ) / 10 ^ 10 - q| ≤ 1 / (2 * 10 ^ 10) ∧
    strtod (fixed10 (.fin q)) = some (Dbl.round (n / 10 ^ 10)) ∧
    ∃ a b, fixed10 (.fin q) = a ++ '.' :: b ∧ b.length = 10 ∧ a = (toString (n / 10 ^ 10)).toList ∧ ∀ c ∈ b, isDecimal c = true := by
  have h0 : 0 ≤ Dbl.halfEven (|q| * 10 ^ 10) := by
    have hy : 0 ≤ |q| * 10 ^ 10 := by positivity
    generalize |q| * 10 ^ 10 = y at hy
    have h := (abs_le.1 (Dbl.halfEven_error y)).1
    have : (-1 : ℚ) < Dbl.halfEven y := by linarith
    have : (-1 : ℤ) < Dbl.halfEven y := by exact_mod_cast this
    exact Int.lt_iff_add_one_le.1 this
  have hm : minus q = [] := by simp [minus, hq.not_gt]
  refine ⟨(Dbl.halfEven (|q| * 10 ^ 10)).toNat, ?_, ?_, ?_⟩
  · have hc : (((Dbl.halfEven (|q| * 10 ^ 10)).toNat : ℕ) : ℚ) = Dbl.halfEven (|q| * 10 ^ 10) := by
      have : ((Dbl.halfEven (|q| * 10 ^ 10)).toNat : ℤ) = Dbl.halfEven (|q| * 10 ^ 10) := Int.toNat_of_nonneg h0
      exact_mod_cast congrArg (Int.cast : ℤ → ℚ) this
    rw [hc]
    have h := abs_le.1 (Dbl.halfEven_error (|q| * 10 ^ 10))
    rw [abs_of_nonneg hq] at h ⊢
    rw [abs_le]
    constructor <;> · norm_num at h ⊢; linarith
  · simp only [fixed10, hm, List.nil_append]
    generalize (Dbl.halfEven (|q| * 10 ^ 10)).toNat = n
    have := strtod_point (a := Nat.toDigits 10 (n / 10 ^ 10)) (b := padded 10 (n % 10 ^ 10)) (by simp)
      (toDigits_decimal _) (padded_decimal _ _)
    rw [List.append_assoc]
    refine this.trans ?_
    rw [number_append, number_toDigits, number_padded, padded_length, Nat.mod_mod, Nat.div_add_mod']
  · refine ⟨_, padded 10 _, by simp only [fixed10, hm, List.nil_append]; rw [List.append_assoc]; rfl, padded_length _ _, ?_, padded_decimal _ _⟩
    exact Nat.toList_repr.symm

/-- **C89.** Negative numbers have a sign in front. -/
theorem C89_sign {q : ℚ} (hq : 0 < q) : general10 (.fin (-q)) = '-' :: general10 (.fin q) ∧ fixed10 (.fin (-q)) = '-' :: fixed10 (.fin q) := by
  have h : ¬ q < 0 := hq.not_gt
  constructor
  · simp [general10, minus, hq.ne', hq, h]
  · simp [fixed10, minus, hq, h]

/-- **C89.** Other numbers are written as a decimal fraction with one digit in front of the point, and an exponent; this also is the
number rounded to ten digits. -/
theorem C89_scientific {q : ℚ} (hq : 0 < q) (ho : ¬ Ordinary q) : ∃ (m : ℕ) (x : ℤ) (s : Str), 10 ^ 9 ≤ m ∧ m < 10 ^ 10 ∧
    Rounds q (m / 10 ^ 9 * 10 ^ x) ∧ strtod s = some (Dbl.round (m / 10 ^ 9)) ∧
    general10 (.fin q) = s ++ 'e' :: (if x < 0 then '-' else '+') ::
      ((if x.natAbs < 10 then ['0'] else []) ++ (toString x.natAbs).toList) := by
  obtain ⟨h1, h2, h3⟩ := sig10_spec hq
  have hx : ¬ (-4 ≤ (sig10 q).2 ∧ (sig10 q).2 < 10) := fun h => ho (.inr ((sig10_range hq).1 h))
  have hl := padded_length 10 (sig10 q).1
  have hd := padded_decimal 10 (sig10 q).1
  have e9 : ((sig10 q).1 : ℚ) / 10 ^ 9 * 10 ^ (sig10 q).2 = (sig10 q).1 * 10 ^ ((sig10 q).2 - 9) := by
    rw [zpow_sub₀ (by norm_num)]
    norm_num
    ring
  refine ⟨(sig10 q).1, (sig10 q).2, pointed ((padded 10 (sig10 q).1).take 1) ((padded 10 (sig10 q).1).drop 1), h1, h2, ?_, ?_, ?_⟩
  · rw [e9]
    exact ⟨⟨_, _, h2, rfl⟩, h3⟩
  · rw [strtod_pointed]
    · rw [List.take_append_drop, number_padded, Nat.mod_eq_of_lt h2, List.length_drop, hl]
    · intro h
      have := congrArg List.length h
      rw [List.length_take, hl] at this
      simp at this
    · exact fun c hc => hd c (List.mem_of_mem_take hc)
    · exact fun c hc => hd c (List.mem_of_mem_drop hc)
  · rw [general10_pos hq]
    unfold general
    dsimp only
    rw [if_neg hx, exponent]
    have e : (toString (sig10 q).2.natAbs).toList = Nat.toDigits 10 (sig10 q).2.natAbs := Nat.toList_repr
    rw [e]
    split <;> split <;> rfl

/-! ## Trees of doubles -/

/-- A constant comes back as the double next to it with ten digits. -/
def Near (v w : Dbl) : Prop := ∃ q d p, v = .fin q ∧ w = .fin p ∧ Rounds q d ∧ Dbl.round d = .fin p

/-- Trees with ordinary constants, and variables with letters for names that are neither functions nor operators nor one of the
words `inf`, `infinity` and `nan`. -/
inductive OrdinaryTree (E : Env) : Tree Dbl → Prop where
  | const {q i} : Ordinary q → OrdinaryTree E (.const (.fin q) i)
  | var {n x i} : n ≠ [] → (∀ ch ∈ n, isLetter ch = true) → E.lookup n .function = none → E.lookup n .infix = none →
      n.map lower ∉ ["inf".toList, "infinity".toList, "nan".toList] → OrdinaryTree E (.var n x i)
  | op {o cs i} : E.lookup o.name o.placement = some o → (o.arity = .dyn ∨ o.arity = .fixed cs.length) →
      (∀ c ∈ cs, OrdinaryTree E c) → OrdinaryTree E (.op o cs i)

theorem strtod_word {n : Str} (h0 : n ≠ []) (h1 : ∀ ch ∈ n, isLetter ch = true)
    (h2 : n.map lower ∉ ["inf".toList, "infinity".toList, "nan".toList]) : strtod n = none := by
  obtain ⟨c, cs, rfl⟩ := List.exists_cons_of_ne_nil h0
  have hc : isDecimal c = false ∧ c ≠ '.' := by
    have := h1 c (by simp)
    have hl : isDigit c = false := (letter_facts this).1
    constructor
    · cases h : isDecimal c with
      | false => rfl
      | true => rw [decimal_isDigit.2 (.inl h)] at hl; cases hl
    · rintro rfl
      exact absurd hl (by decide)
  simp only [List.mem_cons, List.not_mem_nil, or_false, not_or] at h2
  have e1 : [ "inf".toList, "infinity".toList ].contains ((c :: cs).map lower) = false := by
    rw [Bool.eq_false_iff]
    intro h
    rw [List.contains_iff_mem] at h
    simp only [List.mem_cons, List.not_mem_nil, or_false] at h
    exact h.elim h2.1 h2.2.1
  simp only [strtod, e1, if_neg h2.2.2, Bool.false_eq_true, if_false]
  rw [List.dropWhile_cons_of_neg (by simp [hc.1])]
  simp [hc.2]

theorem OrdinaryTree.round {E : Env} {t : Tree Dbl} (h : OrdinaryTree E t) : RoundTree E strtod general10 t := by
  induction h with
  | @const q i ho =>
    obtain ⟨d, w, -, -, h3, -, h5⟩ := C89_read ho
    exact .const (general10_numeric _).1 ((C89_style q).2 ho) h3 h5
  | var h0 h1 h2 h3 h4 => exact .var h0 h1 h2 h3 (strtod_word h0 h1 h4)
  | op h1 h2 _ ih => exact .op h1 h2 ih

theorem alike_near {E : Env} {t : Tree Dbl} (h : OrdinaryTree E t) :
    ∀ {u : Tree Dbl}, Alike (fun v w => strtod (general10 v) = some w) t u → Alike Near t u := by
  induction h with
  | @const q i ho =>
    intro u ha
    cases ha with
    | const hr =>
      obtain ⟨d, w, h1, h2, h3, -, -⟩ := C89_read ho
      rw [h3] at hr
      cases hr
      exact .const ⟨q, d, w, rfl, rfl, h1, h2⟩
  | var => intro u ha; cases ha; exact .var
  | @op o cs i _ _ _ ih =>
    intro u ha
    cases ha with
    | op hl hk => exact .op hl fun k hk' => ih _ (List.getElem_mem hk') (hk k hk')

/-- **C18** (partial: constants must be ordinary, and come back rounded to ten digits).  Over doubles, with `%.10g` and `strtod`: in
the calculator's context with any user functions, tokenizing and parsing the printed text yields the tree with every
constant rounded to ten digits, and printing that tree yields the same text again. -/
theorem C18_doubles_partial (c : Ctx) (hc : ArithLike c) (t : Tree Dbl) (ht : OrdinaryTree c.env t) :
    ∃ s t', treeToStr general10 t = .ok s ∧ (parseInput c strtod s).2 = .ok t' ∧ Alike Near t t' ∧ treeToStr general10 t' = .ok s := by
  obtain ⟨s, t', h1, h2, h3, h4⟩ := C18_rounded_partial c hc strtod general10 t ht.round
  exact ⟨s, t', h1, h2, alike_near ht h3, h4⟩

/-! ## Some numbers -/

example : general10 (.fin (1 / 8)) = "0.125".toList ∧ general10 (.fin 150) = "150".toList ∧
    general10 (.round (1 / 10)) = "0.1".toList ∧ general10 (.round (2 / 3)) = "0.6666666667".toList ∧
    general10 (.fin (99999999995 / 10)) = "1e+10".toList ∧ general10 (.fin (-3 / 2)) = "-1.5".toList ∧
    general10 (.fin (99999999995 / 10 ^ 15)) = "0.0001".toList ∧ general10 (.fin (10 ^ 100)) = "1e+100".toList := by decide +kernel

example : strtod "0.1".toList = some (.round (1 / 10)) ∧ strtod ".5".toList = some (.fin (1 / 2)) ∧ strtod "5.".toList = some (.fin 5) ∧
    strtod ".".toList = none ∧ strtod "1.2.3".toList = none ∧ strtod "inf".toList = some (.inf false) ∧ strtod "NaN".toList = some .nan ∧
    strtod "x".toList = none := by decide +kernel

example : Ordinary (1 / 3) ∧ ¬ Ordinary (1 / 100000) ∧ ¬ Ordinary (10 ^ 10) ∧ ¬ Ordinary (-1) := by
  unfold Ordinary
  norm_num

/-- The numbers next to 0.1 and 12345.678 are read exactly. -/
example : TenDigits (12345678 / 1000) ∧ (1 : ℚ) / 10 ^ 4 ≤ 12345678 / 1000 ∧ (12345678 / 1000 : ℚ) < 10 ^ 10 ∧
    ∃ q, Dbl.round (12345678 / 1000) = .fin q := by
  refine ⟨⟨12345678, -3, by norm_num, by norm_num [zpow_neg]⟩, by norm_num, by norm_num, ?_⟩
  obtain ⟨q, h, -⟩ := Dbl.round_error (12345678 / 1000) (by
    rw [abs_of_pos (by norm_num)]
    calc (12345678 / 1000 : ℚ) ≤ 2 ^ 14 := by norm_num
      _ ≤ 2 ^ (1023 : ℕ) := pow_le_pow_right₀ (by norm_num) (by norm_num))
  exact ⟨q, h⟩

/-- **C18**, negation of the full statement for doubles: the double next to 1/3 is printed `0.3333333333` and comes back as another. -/
theorem C18_third : ∃ q w, Dbl.round (1 / 3) = .fin q ∧ strtod (general10 (.fin q)) = some (.fin w) ∧ w ≠ q :=
  ⟨6004799503160661 / 18014398509481984, 6004799502560181 / 18014398509481984, by decide +kernel, by decide +kernel, by norm_num⟩

/-- The tree `0.125+x` in the calculator's context is one of those of `C18_doubles_partial`. -/
example : ∃ c, arithCtx = .ok c ∧ ArithLike c ∧ ∃ o : Op, o.name = "+".toList ∧
    OrdinaryTree c.env (.op o [.const (.fin (1 / 8)) 0, .var "x".toList 0 0] 0) := by
  obtain ⟨c, hc, ha⟩ := arithCtx_ok
  refine ⟨c, hc, ha, ?_⟩
  have key : (match arithCtx with
    | .ok c => (match c.env.lookup "+".toList .infix with
        | some o => o.name == "+".toList && o.placement == .infix && o.arity == .fixed 2
        | none => false) && (c.env.lookup "x".toList .function).isNone && (c.env.lookup "x".toList .infix).isNone
    | _ => false) = true := by decide +kernel
  rw [hc] at key
  simp only [Bool.and_eq_true, Option.isNone_iff_eq_none] at key
  obtain ⟨⟨h1, h2⟩, h3⟩ := key
  cases ho : c.env.lookup "+".toList .infix with
  | none => rw [ho] at h1; cases h1
  | some o =>
    rw [ho] at h1
    simp only [Bool.and_eq_true, beq_iff_eq] at h1
    obtain ⟨⟨g1, g2⟩, g3⟩ := h1
    refine ⟨o, g1, .op (by rw [g1, g2, ho]) (.inr g3) ?_⟩
    intro t ht
    simp only [List.mem_cons, List.not_mem_nil, or_false] at ht
    rcases ht with rfl | rfl
    · exact .const (.inr (by norm_num))
    · exact .var (by decide) (by decide) h2 h3 (by decide)

end Verif.PrintfProps
