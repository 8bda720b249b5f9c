import Verif.Model.Tokenizer
import Verif.Lemmas.Trie
import Verif.Spec.Tokens

namespace Verif

/-- The keyword set of a trie. -/
def kwSet (kw : Trie Unit) (s : Str) : Prop := Trie.mem kw.root s = true

theorem isLetter_not_isDigit {c : Char} (h : isLetter c = true) : isDigit c = false := by
  simp only [isLetter, Bool.or_eq_true, Bool.and_eq_true, decide_eq_true_eq, beq_iff_eq] at h
  simp only [isDigit, Bool.or_eq_false_iff, Bool.and_eq_false_iff, decide_eq_false_iff_not,
    beq_eq_false_iff_ne]
  have key : ∀ a b : Char, a ≤ b ↔ a.toNat ≤ b.toNat := fun a b => Iff.rfl
  simp only [key] at *
  have e1 : ('A' : Char).toNat = 65 := by decide
  have e2 : ('Z' : Char).toNat = 90 := by decide
  have e3 : ('a' : Char).toNat = 97 := by decide
  have e4 : ('z' : Char).toNat = 122 := by decide
  have e5 : ('0' : Char).toNat = 48 := by decide
  have e6 : ('9' : Char).toNat = 57 := by decide
  rcases h with (((h | h) | h) | h) | h
  · refine ⟨by omega, ?_⟩
    rintro rfl
    revert h; decide
  · refine ⟨by omega, ?_⟩
    rintro rfl
    revert h; decide
  · subst h; decide
  · subst h; decide
  · subst h; decide

theorem classify_digit {c : Char} : classify c = .digit ↔ isDigit c = true := by
  unfold classify; split
  · simp_all
  · split <;> simp_all

theorem classify_letter {c : Char} : classify c = .letter ↔ isLetter c = true := by
  unfold classify; split
  · rename_i h
    simp only [reduceCtorEq, false_iff]
    intro hl
    rw [isLetter_not_isDigit hl] at h
    cases h
  · split <;> simp_all

theorem classify_other {c : Char} :
    classify c = .other ↔ isLetter c = false ∧ isDigit c = false := by
  unfold classify; split
  · simp_all
  · split <;> simp_all

theorem classify_ne_new (c : Char) : classify c ≠ .new := by
  unfold classify; split
  · simp
  · split <;> simp

/-- Meaning of the result of the keyword search. -/
theorem longest_zero {kw : Trie Unit} {s : Str} (h : (kw.longestPrefix s).1 = 0) :
    NoKeyword (kwSet kw) s := by
  intro k hk hp
  obtain ⟨-, -, h3⟩ := Trie.longestPrefix_spec kw s
  by_contra hne
  have hlen : 0 < k.length := List.length_pos_iff.mpr hne
  have := h3 k.length (by omega) hp.length_le
  rw [← List.prefix_iff_eq_take.mp hp] at this
  rw [kwSet, this] at hk
  cases hk

theorem longest_pos {kw : Trie Unit} {s : Str} (h : (kw.longestPrefix s).1 ≠ 0) :
    (kw.longestPrefix s).1 ≤ s.length ∧
    LongestKeyword (kwSet kw) s (s.take (kw.longestPrefix s).1) := by
  obtain ⟨h1, h2, h3⟩ := Trie.longestPrefix_spec kw s
  refine ⟨h1, ?_, (h2 h).1, List.take_prefix _ _, ?_⟩
  · intro hc
    have : (s.take (kw.longestPrefix s).1).length = 0 := by rw [hc]; rfl
    rw [List.length_take] at this
    omega
  · intro k' hk' hp
    rw [List.length_take]
    by_contra hlt
    have := h3 k'.length (by omega) hp.length_le
    rw [← List.prefix_iff_eq_take.mp hp] at this
    rw [kwSet, this] at hk'
    cases hk'

/-- What the characters pending since `next_token_start` look like in each state. -/
def Pending (kw : Trie Unit) (st : TokState) (pend rest : Str) : Prop :=
  match st with
  | .new => pend = []
  | .letter => pend ≠ [] ∧ ∀ c ∈ pend, isLetter c = true
  | .digit => pend ≠ [] ∧ ∀ c ∈ pend, isDigit c = true
  | .other => ∃ c, pend = [c] ∧ isLetter c = false ∧ isDigit c = false ∧
      NoKeyword (kwSet kw) (c :: rest)

theorem noKeyword_of_digit {kw : Trie Unit} (hkw : ∀ k, kwSet kw k → headIs isDigit k = false)
    {s : Str} (h : headIs isDigit s = true) : NoKeyword (kwSet kw) s := by
  intro k hk hp
  cases k with
  | nil => rfl
  | cons c cs =>
    obtain ⟨t, ht⟩ := hp
    have := hkw _ hk
    rw [← ht] at h
    simp only [headIs, List.cons_append] at h this
    rw [this] at h
    cases h

theorem tokLoop_canon (kw : Trie Unit) (hkw : ∀ k, kwSet kw k → headIs isDigit k = false)
    (fuel : Nat) : ∀ (pre pend rest : Str) (st : TokState) (toks : List Str),
    rest.length ≤ fuel → Pending kw st pend rest →
    ∃ ts, tokLoop kw (pre ++ pend ++ rest) fuel (pre.length + pend.length) pre.length st toks
        = toks ++ ts ∧ Canon (kwSet kw) (pend ++ rest) ts := by
  have hfin : ∀ (pre pend : Str) (st : TokState) (toks : List Str), Pending kw st pend [] →
      ∃ ts, pushToken toks (((pre ++ pend ++ []).drop pre.length).take
        ((pre ++ pend ++ []).length - pre.length)) = toks ++ ts ∧
        Canon (kwSet kw) (pend ++ []) ts := by
    intro pre pend st toks hp
    have hd : ((pre ++ pend ++ []).drop pre.length).take ((pre ++ pend ++ []).length - pre.length)
        = pend := by simp
    rw [hd]
    have hcons : ∀ p : Str, p ≠ [] → pushToken toks p = toks ++ [p] := by
      intro p hp
      cases p with
      | nil => exact absurd rfl hp
      | cons => simp [pushToken]
    cases st with
    | new =>
      simp only [Pending] at hp
      subst hp
      exact ⟨[], by simp [pushToken], .nil⟩
    | letter => exact ⟨[pend], hcons _ hp.1, .letters hp.1 hp.2 rfl .nil⟩
    | digit =>
      refine ⟨[pend], hcons _ hp.1, .digits hp.1 hp.2 rfl ?_ .nil⟩
      apply noKeyword_of_digit hkw
      cases pend with
      | nil => exact absurd rfl hp.1
      | cons c cs => exact hp.2 c List.mem_cons_self
    | other =>
      obtain ⟨c, rfl, h1, h2, h3⟩ := hp
      exact ⟨[[c]], by simp [pushToken], .other h1 h2 h3 .nil⟩
  induction fuel with
  | zero =>
    intro pre pend rest st toks hl hp
    have : rest = [] := List.length_eq_zero_iff.mp (by omega)
    subst this
    exact hfin pre pend st toks hp
  | succ fuel ih =>
    intro pre pend rest st toks hl hp
    cases rest with
    | nil =>
      have : (pre ++ pend ++ [])[pre.length + pend.length]? = none := by simp
      simp only [tokLoop, this]
      exact hfin pre pend st toks hp
    | cons c r =>
      have hget : (pre ++ pend ++ c :: r)[pre.length + pend.length]? = some c := by
        rw [List.append_assoc, List.getElem?_append_right (by omega)]
        simp
      have hdrop : (pre ++ pend ++ c :: r).drop (pre.length + pend.length) = c :: r := by
        rw [← List.length_append, List.drop_left]
      have hpend : ((pre ++ pend ++ c :: r).drop pre.length).take
          (pre.length + pend.length - pre.length) = pend := by
        rw [List.append_assoc, List.drop_left]
        simp
      simp only [tokLoop, hget, hdrop, hpend]
      have hlr : r.length ≤ fuel := by simpa using hl
      -- continuation after a possible end of token
      have hcont : ∀ (pre' : Str) (toks' : List Str), pre' = pre ++ pend →
          ∃ ts, (if (if (classify c != .letter) = true then (kw.longestPrefix (c :: r)).1 else 0) > 0
            then tokLoop kw (pre ++ pend ++ c :: r) fuel
              (pre.length + pend.length +
                (if (classify c != .letter) = true then (kw.longestPrefix (c :: r)).1 else 0))
              (pre'.length +
                (if (classify c != .letter) = true then (kw.longestPrefix (c :: r)).1 else 0))
              .new (pushToken toks' ((c :: r).take
                (if (classify c != .letter) = true then (kw.longestPrefix (c :: r)).1 else 0)))
            else tokLoop kw (pre ++ pend ++ c :: r) fuel (pre.length + pend.length + 1)
              pre'.length (classify c) toks') = toks' ++ ts ∧
            Canon (kwSet kw) (c :: r) ts := by
        intro pre' toks' hpre'
        subst hpre'
        by_cases hcl : classify c = .letter
        · simp only [hcl, bne_self_eq_false, Bool.false_eq_true, if_false, gt_iff_lt,
            Nat.lt_irrefl]
          obtain ⟨ts, h1, h2⟩ := ih (pre ++ pend) [c] r .letter toks' hlr
            ⟨by simp, by simpa using classify_letter.mp hcl⟩
          refine ⟨ts, ?_, h2⟩
          rw [← h1]
          simp
        · have hne : (classify c != .letter) = true := by simpa using hcl
          simp only [hne, if_true]
          have hnl : isLetter c = false := by
            rw [Bool.eq_false_iff]
            exact fun h => hcl (classify_letter.mpr h)
          by_cases hlen : (kw.longestPrefix (c :: r)).1 = 0
          · rw [hlen]
            simp only [gt_iff_lt, Nat.lt_irrefl, if_false]
            have hno := longest_zero hlen
            have hpend' : Pending kw (classify c) [c] r := by
              cases hcc : classify c with
              | new => exact absurd hcc (classify_ne_new c)
              | letter => exact absurd hcc hcl
              | digit => exact ⟨by simp, by simpa using classify_digit.mp hcc⟩
              | other =>
                exact ⟨c, rfl, hnl, (classify_other.mp hcc).2, hno⟩
            obtain ⟨ts, h1, h2⟩ := ih (pre ++ pend) [c] r (classify c) toks' hlr hpend'
            refine ⟨ts, ?_, h2⟩
            rw [← h1]
            simp
          · obtain ⟨hle, hlk⟩ := longest_pos hlen
            have hpos : (kw.longestPrefix (c :: r)).1 > 0 := Nat.pos_of_ne_zero hlen
            rw [if_pos hpos]
            generalize (kw.longestPrefix (c :: r)).1 = len at *
            obtain ⟨ts, h1, h2⟩ := ih (pre ++ pend ++ (c :: r).take len) [] ((c :: r).drop len) .new
              (toks' ++ [(c :: r).take len])
              (by simp only [List.length_drop, List.length_cons]; omega) rfl
            refine ⟨(c :: r).take len :: ts, ?_, ?_⟩
            · have hp1 : pushToken toks' ((c :: r).take len) = toks' ++ [(c :: r).take len] := by
                have : ¬ ((c :: r).take len).length = 0 := by
                  rw [List.length_take]; simp only [List.length_cons] at *; omega
                simp [pushToken, this]
                intro h; omega
              rw [hp1]
              have hlen' : ((c :: r).take len).length = len := by
                rw [List.length_take]; omega
              have e : pre ++ pend ++ (c :: r).take len ++ [] ++ (c :: r).drop len
                  = pre ++ pend ++ c :: r := by
                rw [List.append_nil, List.append_assoc _ ((c :: r).take len),
                  List.take_append_drop]
              rw [e] at h1
              simp only [List.length_append, List.length_nil, Nat.add_zero, hlen'] at h1
              rw [List.length_append, h1]
              simp
            · have := Canon.keyword (K := kwSet kw) (k := (c :: r).take len)
                (rest := (c :: r).drop len) (ts := ts) ?_ ?_ ?_
              · simpa [List.take_append_drop] using this
              · obtain ⟨l, rfl⟩ : ∃ l, len = l + 1 := ⟨len - 1, by omega⟩
                simpa [headIs] using hnl
              · rw [List.take_append_drop]; exact hlk
              · simpa using h2
      by_cases hend : (st != .new && (classify c != st || classify c == .other)) = true
      · -- the pending token ends here
        simp only [hend, if_true]
        simp only [Bool.and_eq_true, bne_iff_ne, ne_eq, Bool.or_eq_true, beq_iff_eq] at hend
        have hne : pend ≠ [] := by
          cases st with
          | new => exact absurd rfl hend.1
          | letter => exact hp.1
          | digit => exact hp.1
          | other => obtain ⟨d, rfl, -⟩ := hp; simp
        have hpush : pushToken toks pend = toks ++ [pend] := by
          cases pend with
          | nil => exact absurd rfl hne
          | cons => simp [pushToken]
        rw [hpush]
        obtain ⟨ts, h1, h2⟩ := hcont (pre ++ pend) (toks ++ [pend]) rfl
        rw [List.length_append] at h1
        refine ⟨pend :: ts, ?_, ?_⟩
        · rw [h1]; simp
        · cases st with
          | new => exact absurd rfl hend.1
          | letter =>
            refine .letters hp.1 hp.2 ?_ h2
            simp only [headIs]
            rw [Bool.eq_false_iff]
            intro h
            have := classify_letter.mpr h
            simp [this] at hend
          | digit =>
            refine .digits hp.1 hp.2 ?_ ?_ h2
            · simp only [headIs]
              rw [Bool.eq_false_iff]
              intro h
              have := classify_digit.mpr h
              simp [this] at hend
            · apply noKeyword_of_digit hkw
              cases pend with
              | nil => exact absurd rfl hne
              | cons d ds => exact hp.2 d List.mem_cons_self
          | other =>
            obtain ⟨d, rfl, g1, g2, g3⟩ := hp
            exact .other g1 g2 g3 h2
      · -- the pending token goes on (or there is none)
        have hendf : (st != .new && (classify c != st || classify c == .other)) = false := by
          simpa using hend
        simp only [hendf, Bool.false_eq_true, if_false]
        simp only [Bool.and_eq_false_iff, bne_eq_false_iff_eq, Bool.or_eq_false_iff,
          beq_eq_false_iff_ne, ne_eq] at hendf
        by_cases hnew : st = .new
        · subst hnew
          simp only [Pending] at hp
          subst hp
          obtain ⟨ts, h1, h2⟩ := hcont pre toks (by simp)
          exact ⟨ts, h1, h2⟩
        · rcases hendf with h | ⟨hst, hno⟩
          · exact absurd h hnew
          · subst hst
            -- same state: letter run or digit run
            have hlen0 : (if (classify c != .letter) = true
                then (kw.longestPrefix (c :: r)).1 else 0) = 0 := by
              split
              · rename_i hnl
                have hdig : isDigit c = true := by
                  rw [← classify_digit]
                  cases hcc : classify c with
                  | new => exact absurd hcc (classify_ne_new c)
                  | letter => rw [hcc] at hnl; cases hnl
                  | digit => rfl
                  | other => exact absurd hcc hno
                by_contra hne
                obtain ⟨hle, hk0, hk1, hk2, -⟩ := longest_pos hne
                exact hk0 (noKeyword_of_digit hkw (s := c :: r) hdig _ hk1 hk2)
              · rfl
            rw [hlen0]
            simp only [gt_iff_lt, Nat.lt_irrefl, if_false]
            have hpend' : Pending kw (classify c) (pend ++ [c]) r := by
              cases hcc : classify c with
              | new => exact absurd hcc (classify_ne_new c)
              | letter =>
                rw [hcc] at hp
                refine ⟨by simp, ?_⟩
                intro d hd
                rcases List.mem_append.mp hd with hd | hd
                · exact hp.2 d hd
                · simp only [List.mem_singleton] at hd
                  subst hd
                  exact classify_letter.mp hcc
              | digit =>
                rw [hcc] at hp
                refine ⟨by simp, ?_⟩
                intro d hd
                rcases List.mem_append.mp hd with hd | hd
                · exact hp.2 d hd
                · simp only [List.mem_singleton] at hd
                  subst hd
                  exact classify_digit.mp hcc
              | other => exact absurd hcc hno
            obtain ⟨ts, h1, h2⟩ := ih pre (pend ++ [c]) r (classify c) toks hlr hpend'
            refine ⟨ts, ?_, by simpa using h2⟩
            rw [← h1]
            simp [Nat.add_assoc]

end Verif
