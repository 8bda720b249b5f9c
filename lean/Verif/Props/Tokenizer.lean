import Verif.Lemmas.Tokenizer
import Verif.Props.Trie

/-!
# Properties C07, C08: tokenization

The full statement of C07 ("every keyword set") is false of the code:
`C07_digit_keyword_witness`.  What holds is the statement for keyword sets in
which no keyword begins with a digit or a dot (`C07_lossless_partial`); the
calculator never has such a keyword, since function names are letters only and
no built-in operator begins with a digit (`C07_calculator` in `Props/Parser`).
-/

namespace Verif.TokenizerProps

open Verif

/-- No keyword of the trie begins with a digit or a dot.  Stated by the public
query of the trie. -/
def NoDigitKeyword (kw : Trie Unit) : Prop :=
  ∀ k, (kw.contains k).1 = true → headIs isDigit k = false

/-- The keyword set as observed by the public query. -/
def keywords (kw : Trie Unit) (s : Str) : Prop := (kw.contains s).1 = true

theorem keywords_eq (kw : Trie Unit) : keywords kw = kwSet kw := by
  funext s
  simp only [keywords, kwSet, Trie.contains_spec]

/-- C08 (partial: keyword sets without a keyword beginning with a digit): the
result of the tokenizer is a canonical decomposition of the input. -/
theorem C08_canonical_partial (kw : Trie Unit) (h : NoDigitKeyword kw) (inp : Str) :
    Canon (keywords kw) inp (tokenize kw inp) := by
  have hkw : ∀ k, kwSet kw k → headIs isDigit k = false := by
    intro k hk
    rw [← keywords_eq] at hk
    exact h k hk
  obtain ⟨ts, h1, h2⟩ := tokLoop_canon kw hkw inp.length [] [] inp .new [] (by omega) rfl
  simp only [List.nil_append, List.length_nil, Nat.add_zero] at h1 h2
  rw [keywords_eq, tokenize, h1]
  exact h2

theorem canon_lossless {K : Str → Prop} {s : Str} {ts : List Str} (h : Canon K s ts) :
    ts.flatten = s ∧ ∀ t ∈ ts, t ≠ [] := by
  induction h with
  | nil => simp
  | letters h1 _ _ _ ih => simpa [ih.1] using ⟨h1, ih.2⟩
  | keyword _ h2 _ ih => simpa [ih.1] using ⟨h2.1, ih.2⟩
  | digits h1 _ _ _ _ ih => simpa [ih.1] using ⟨h1, ih.2⟩
  | other _ _ _ _ ih => simpa [ih.1] using ih.2

/-- C07 (partial: keyword sets without a keyword beginning with a digit): the
tokens are non-empty and concatenate to the input. -/
theorem C07_lossless_partial (kw : Trie Unit) (h : NoDigitKeyword kw) (inp : Str) :
    (tokenize kw inp).flatten = inp ∧ ∀ t ∈ tokenize kw inp, t ≠ [] :=
  canon_lossless (C08_canonical_partial kw h inp)

/-- The trie holding the given keywords, built by the public operations. -/
def kwOf (ks : List Str) : Trie Unit :=
  match TrieProps.run Trie.create (ks.map (TrieProps.TrieOp.add · ())) with
  | .ok t => t
  | _ => Trie.create

/-- C07, negation of the full statement: with the keyword `1` the input `21`
gives tokens that are not the input (the keyword is cut out of the digit run,
and the run is then cut at the wrong place). -/
theorem C07_digit_keyword_witness :
    (tokenize (kwOf [['1']]) ['2', '1']).flatten ≠ ['2', '1'] := by decide

/-! ## The canonical decomposition is unique -/

theorem run_unique {p : Char → Bool} {r1 r2 s1 s2 : Str} (h1 : ∀ c ∈ r1, p c = true)
    (h2 : ∀ c ∈ r2, p c = true) (g1 : headIs p s1 = false) (g2 : headIs p s2 = false)
    (e : r1 ++ s1 = r2 ++ s2) : r1 = r2 ∧ s1 = s2 := by
  induction r1 generalizing r2 with
  | nil =>
    cases r2 with
    | nil => exact ⟨rfl, by simpa using e⟩
    | cons c cs =>
      simp only [List.nil_append, List.cons_append] at e
      subst e
      simp only [headIs] at g1
      rw [h2 c List.mem_cons_self] at g1
      cases g1
  | cons c cs ih =>
    cases r2 with
    | nil =>
      simp only [List.nil_append, List.cons_append] at e
      subst e
      simp only [headIs] at g2
      rw [h1 c List.mem_cons_self] at g2
      cases g2
    | cons d ds =>
      simp only [List.cons_append, List.cons.injEq] at e
      obtain ⟨rfl, e⟩ := e
      obtain ⟨rfl, rfl⟩ := ih (fun x hx => h1 x (List.mem_cons_of_mem _ hx))
        (fun x hx => h2 x (List.mem_cons_of_mem _ hx)) e
      exact ⟨rfl, rfl⟩

theorem headIs_append_run {p : Char → Bool} {run rest : Str} (h : run ≠ [])
    (hp : ∀ c ∈ run, p c = true) : headIs p (run ++ rest) = true := by
  cases run with
  | nil => exact absurd rfl h
  | cons c cs => exact hp c List.mem_cons_self

theorem headIs_append_ne {p : Char → Bool} {k rest : Str} (h : k ≠ []) :
    headIs p (k ++ rest) = headIs p k := by
  cases k with
  | nil => exact absurd rfl h
  | cons c cs => rfl

theorem headIs_digit_letter {s : Str} (h : headIs isDigit s = true) : headIs isLetter s = false := by
  cases s with
  | nil => rfl
  | cons c cs =>
    simp only [headIs] at *
    rw [Bool.eq_false_iff]
    intro hl
    rw [isLetter_not_isDigit hl] at h
    cases h

/-- The decomposition described by `Canon` is unique, so C08 determines the
tokens completely. -/
theorem C08_canonical_unique {K : Str → Prop} {s : Str} {t1 t2 : List Str}
    (h1 : Canon K s t1) (h2 : Canon K s t2) : t1 = t2 := by
  induction h1 generalizing t2 with
  | nil =>
    generalize hs : ([] : Str) = s at h2
    cases h2 with
    | nil => rfl
    | letters g1 => exact absurd (List.append_eq_nil_iff.mp hs.symm).1 g1
    | keyword _ g2 => exact absurd (List.append_eq_nil_iff.mp hs.symm).1 g2.1
    | digits g1 => exact absurd (List.append_eq_nil_iff.mp hs.symm).1 g1
    | other => cases hs
  | @letters run rest ts a1 a2 a3 a4 ih =>
    have hhead : headIs isLetter (run ++ rest) = true := headIs_append_run a1 a2
    generalize hs : run ++ rest = s at h2
    cases h2 with
    | nil => exact absurd (List.append_eq_nil_iff.mp hs).1 a1
    | @letters run' rest' ts' b1 b2 b3 b4 =>
      obtain ⟨rfl, rfl⟩ := run_unique a2 b2 a3 b3 hs
      rw [ih b4]
    | @keyword k rest' ts' b1 b2 b3 =>
      rw [hs, headIs_append_ne b2.1, b1] at hhead
      cases hhead
    | @digits run' rest' ts' b1 b2 b3 b4 b5 =>
      rw [hs, headIs_digit_letter (headIs_append_run b1 b2)] at hhead
      cases hhead
    | @other c rest' ts' b1 b2 b3 b4 =>
      rw [hs] at hhead
      simp only [headIs] at hhead
      rw [b1] at hhead
      cases hhead
  | @keyword k rest ts a1 a2 a3 ih =>
    have hhead : headIs isLetter (k ++ rest) = false := by rw [headIs_append_ne a2.1, a1]
    generalize hs : k ++ rest = s at h2 a2
    cases h2 with
    | nil => exact absurd (List.append_eq_nil_iff.mp hs).1 a2.1
    | @letters run' rest' ts' b1 b2 b3 b4 =>
      rw [hs, headIs_append_run b1 b2] at hhead
      cases hhead
    | @keyword k' rest' ts' b1 b2 b3 =>
      have e : k = k' := by
        have l1 := a2.2.2.2 k' b2.2.1 b2.2.2.1
        have l2 := b2.2.2.2 k a2.2.1 a2.2.2.1
        exact (List.prefix_of_prefix_length_le a2.2.2.1 b2.2.2.1 l2).eq_of_length
          (Nat.le_antisymm l2 l1)
      subst e
      obtain rfl := List.append_cancel_left hs
      rw [ih b3]
    | @digits run' rest' ts' b1 b2 b3 b4 b5 =>
      exact absurd (b4 k a2.2.1 a2.2.2.1) a2.1
    | @other c rest' ts' b1 b2 b3 b4 =>
      exact absurd (b3 k a2.2.1 a2.2.2.1) a2.1
  | @digits run rest ts a1 a2 a3 a4 a5 ih =>
    have hhead : headIs isDigit (run ++ rest) = true := headIs_append_run a1 a2
    generalize hs : run ++ rest = s at h2 a4
    cases h2 with
    | nil => exact absurd (List.append_eq_nil_iff.mp hs).1 a1
    | @letters run' rest' ts' b1 b2 b3 b4 =>
      rw [hs] at hhead
      have h := headIs_append_run (rest := rest') b1 b2
      rw [headIs_digit_letter hhead] at h
      cases h
    | @keyword k rest' ts' b1 b2 b3 =>
      exact absurd (a4 k b2.2.1 b2.2.2.1) b2.1
    | @digits run' rest' ts' b1 b2 b3 b4 b5 =>
      obtain ⟨rfl, rfl⟩ := run_unique a2 b2 a3 b3 hs
      rw [ih b5]
    | @other c rest' ts' b1 b2 b3 b4 =>
      rw [hs] at hhead
      simp only [headIs] at hhead
      rw [b2] at hhead
      cases hhead
  | @other c rest ts a1 a2 a3 a4 ih =>
    generalize hs : c :: rest = s at h2 a3
    cases h2 with
    | nil => cases hs
    | @letters run' rest' ts' b1 b2 b3 b4 =>
      have h := headIs_append_run (rest := rest') b1 b2
      rw [← hs] at h
      simp only [headIs] at h
      rw [a1] at h
      cases h
    | @keyword k rest' ts' b1 b2 b3 =>
      exact absurd (a3 k b2.2.1 b2.2.2.1) b2.1
    | @digits run' rest' ts' b1 b2 b3 b4 b5 =>
      have h := headIs_append_run (rest := rest') b1 b2
      rw [← hs] at h
      simp only [headIs] at h
      rw [a2] at h
      cases h
    | @other c rest' ts' b1 b2 b3 b4 =>
      cases hs
      rw [ih b4]

/-- C08, last clause: if no keyword contains a space, no token other than the
single space contains one (canonical decompositions). -/
theorem C08_space_alone {K : Str → Prop} (hK : ∀ k, K k → ' ' ∉ k) {s : Str} {ts : List Str}
    (h : Canon K s ts) : ∀ t ∈ ts, ' ' ∈ t → t = [' '] := by
  have hl : isLetter ' ' = false := by decide
  have hd : isDigit ' ' = false := by decide
  induction h with
  | nil => simp
  | letters _ h2 _ _ ih =>
    simp only [List.mem_cons, forall_eq_or_imp]
    refine ⟨fun hm => ?_, ih⟩
    have := h2 _ hm
    rw [hl] at this
    cases this
  | keyword _ h2 _ ih =>
    simp only [List.mem_cons, forall_eq_or_imp]
    exact ⟨fun hm => absurd hm (hK _ h2.2.1), ih⟩
  | digits _ h2 _ _ _ ih =>
    simp only [List.mem_cons, forall_eq_or_imp]
    refine ⟨fun hm => ?_, ih⟩
    have := h2 _ hm
    rw [hd] at this
    cases this
  | other _ _ _ _ ih =>
    simp only [List.mem_cons, forall_eq_or_imp]
    refine ⟨fun hm => ?_, ih⟩
    simp only [List.not_mem_nil, or_false] at hm
    rw [hm]

/-! ## Non-vacuity -/

def demoKw : Trie Unit := kwOf ["+".toList, "++".toList, "*".toList]

example : tokenize demoKw "ab12.5+++x ".toList
    = ["ab".toList, "12.5".toList, "++".toList, "+".toList, "x".toList, " ".toList] := by
  decide +kernel

/-- The hypothesis of the C07/C08 theorems holds for a non-trivial keyword set. -/
example : NoDigitKeyword demoKw := by
  intro k hk
  obtain ⟨t, h1, h2, -⟩ := TrieProps.C01_trie_refines_map (α := Unit)
    (["+".toList, "++".toList, "*".toList].map (TrieProps.TrieOp.add · ()))
    (by
      intro o ho
      obtain ⟨k, hk, rfl⟩ := List.mem_map.mp ho
      show TrieProps.Storable k
      clear ho
      revert k
      decide)
  have : demoKw = t := by
    unfold demoKw kwOf
    rw [h1]
  rw [this, h2] at hk
  have key : ∀ m : TrieProps.SpecMap Unit, (m.get k).isSome = true → k ∈ m.map (·.1) := by
    intro m hm
    simp only [TrieProps.SpecMap.get, Option.isSome_map, List.find?_isSome, beq_iff_eq] at hm
    obtain ⟨p, hp, rfl⟩ := hm
    exact List.mem_map_of_mem hp
  have := key _ hk
  clear hk key
  revert k
  decide

end Verif.TokenizerProps
