import Verif.Lemmas.ParserTotal
import Verif.Lemmas.ParserErr
import Verif.Lemmas.ParserNat
import Verif.Lemmas.ParserGlue
import Verif.Lemmas.ArithContext
import Verif.Model.ErrorPos
import Verif.Props.Tokenizer

/-!
# C09, C14 - C16, C19, C20: the parser
-/

namespace Verif.ParserProps
open Verif
variable {V : Type}

/-! ## Concrete environments for examples and witnesses -/

/-- Contexts given by a list of operators. -/
def envOf (ops : List Op) (glue : Option Op) : Env :=
  ⟨fun n pl => ops.find? fun o => o.name == n && o.placement == pl, glue⟩

/-- A stand-in for strtod that reads one digit. -/
def digit : Str → Option Nat
  | [c] => if '0' ≤ c ∧ c ≤ '9' then some (c.toNat - 48) else none
  | _ => none

def toks (l : List String) : List Str := l.map String.toList

theorem mem_number {α : Type} (l : List α) (k i : Nat) (a : α) :
    (i, a) ∈ number k l ↔ k ≤ i ∧ l[i - k]? = some a := by
  induction l generalizing k with
  | nil => simp [number]
  | cons b l ih =>
    simp only [number, List.mem_cons, Prod.mk.injEq, ih]
    constructor
    · rintro (⟨rfl, rfl⟩ | ⟨h1, h2⟩)
      · simp
      · refine ⟨by omega, ?_⟩
        have : i - k = (i - (k + 1)) + 1 := by omega
        rw [this, List.getElem?_cons_succ]
        exact h2
    · rintro ⟨h1, h2⟩
      by_cases hk : i = k
      · subst hk
        simp only [Nat.sub_self, List.getElem?_cons_zero, Option.some.injEq] at h2
        exact .inl ⟨rfl, h2.symm⟩
      · right
        refine ⟨by omega, ?_⟩
        have : i - k = (i - (k + 1)) + 1 := by omega
        rwa [this, List.getElem?_cons_succ] at h2

theorem mem_number0 {α : Type} (l : List α) (i : Nat) (a : α) :
    (i, a) ∈ number 0 l ↔ l[i]? = some a := by
  rw [mem_number]
  simp

theorem number_snd {α : Type} (l : List α) (k : Nat) : (number k l).map (·.2) = l := by
  induction l generalizing k with
  | nil => rfl
  | cons a l ih => simp [number, ih]

theorem number_fst {α : Type} (l : List α) (k : Nat) :
    (number k l).map (·.1) = List.range' k l.length := by
  induction l generalizing k with
  | nil => rfl
  | cons a l ih => simp [number, ih, List.range'_succ]

/-! ## C14 -/

/-- **C14**, negation of the full statement: on the tokens of `((1,2))` the parser
dereferences NULL, whatever the context. -/
theorem C14_nested_delimiter_witness (E : Env) (strtod : Str → Option V)
    (hE : ∀ n pl, E.lookup n pl = none) (hg : E.glue = none) (v : V)
    (h1 : strtod "1".toList = some v) :
    parseTokens E strtod (toks ["(", "(", "1", ",", "2", ")", ")"]) = .ub := by
  have h1' : strtod ['1'] = some v := h1
  simp [parseTokens, toks, number, parseIdx, runToks, stepTok, stepGlue, hg, stepRest,
    isOpeningParen, isClosingParen, isDelimiter, headIs, isSpace, stepOperand, hE, stepLeaf, h1',
    stepDelimiter, popWhile, PState.init]

/-- **C14**, negation of the full statement, second case: `sum(1,(2,3))`. -/
theorem C14_nested_argument_witness :
    parseTokens (envOf [Op.getFunction "sum".toList .dyn] none) digit
      (toks ["sum", "(", "1", ",", "(", "2", ",", "3", ")", ")"]) = .ub := by
  have key : (match parseTokens (envOf [Op.getFunction "sum".toList .dyn] none) digit
      (toks ["sum", "(", "1", ",", "(", "2", ",", "3", ")", ")"]) with
    | .ub => true
    | _ => false) = true := by decide +kernel
  revert key
  split
  · rename_i h; intro _; exact h
  · intro h; cases h

/-- **C14** (partial: contexts whose operators are as built by the constructors of
operator.c with infix operators of highest precedence associating to the left and
an infix glue operator; tokens without a delimiter directly inside a parenthesis
that directly follows `(` or `,`): the parser ends with a tree or an error code. -/
theorem C14_no_crash_partial (E : Env) (hE : WFEnv E) (strtod : Str → Option V) (tokens : List Str)
    (hd : delimsOk false [] tokens = true) :
    (∃ t, parseTokens E strtod tokens = .ok t) ∨ ∃ e k, parseTokens E strtod tokens = .err e k := by
  have h := (parseIdx_total (strtod := strtod) hE (number 0 tokens) tokens.length
    (by rw [number_snd]; exact hd)).1
  unfold parseTokens
  cases hr : parseIdx E strtod (number 0 tokens) tokens.length with
  | ok t => exact .inl ⟨t, rfl⟩
  | err e k => exact .inr ⟨e, k, rfl⟩
  | okUninit => rw [hr] at h; exact h.elim
  | ub => rw [hr] at h; exact h.elim

/-- **C14** for the calculator (partial: delimiters as above): every context the
calculator can have satisfies the hypothesis on the context. -/
theorem C14_no_crash_calculator_partial (c : Ctx) (hc : ArithLike c) (strtod : Str → Option V)
    (inp : Str) (hd : delimsOk false [] (tokenize c.keywords inp) = true) :
    (∃ t, (parseInput c strtod inp).2 = .ok t) ∨ ∃ e k, (parseInput c strtod inp).2 = .err e k :=
  C14_no_crash_partial _ hc.wf _ _ hd

/-! ## C15 -/

/-- The numbers of all tokens that are operands or operators: neither spaces nor
parentheses nor delimiters. -/
def operandsAndOperators (tokens : List Str) : List Nat :=
  ((number 0 tokens).filter fun x => !headIs isSpace x.2 && !isOpeningParen x.2 &&
    !isClosingParen x.2 && !isDelimiter x.2).map (·.1)

/-- **C15** (partial: contexts and tokens as for C14): if the parser reports
success, it has written a tree (the result is not left uninitialised), exactly
that tree was on the node stack when the last operator had been reduced, and the
nodes of the tree carry each operand and operator token exactly once, besides
nodes for inserted glue operators (`G`), of which there are none without a glue
operator. -/
theorem C15_complete_partial (E : Env) (hE : WFEnv E) (strtod : Str → Option V) (tokens : List Str)
    (hd : delimsOk false [] tokens = true) :
    parseTokens E strtod tokens ≠ .okUninit ∧
    ∀ t, parseTokens E strtod tokens = .ok t →
      (∃ st, runToks E strtod (number 0 tokens) PState.init = .ok st ∧
        popWhile (fun _ => true) st.nodes st.ops = .ok ([t], [])) ∧
      ∃ G : List Nat, (E.glue = none → G = []) ∧ (∀ x ∈ G, x < tokens.length) ∧
        (treeToks t).Perm (operandsAndOperators tokens ++ G) := by
  obtain ⟨h1, h2⟩ := parseIdx_total (strtod := strtod) hE (number 0 tokens) tokens.length
    (by rw [number_snd]; exact hd)
  constructor
  · intro hu
    unfold parseTokens at hu
    rw [hu] at h1
    exact h1
  · intro t ht
    obtain ⟨st, h3, h4, G, h5, h6, h7⟩ := h2 t ht
    refine ⟨⟨st, h3, h4⟩, G, h5, ?_, h7⟩
    intro x hx
    have := h6 x hx
    rw [number_fst, List.mem_range'_1] at this
    omega

/-- **C15**, negation of the full statement: with the function `sum` as glue
operator `1 (2)` is reported as success without a tree. -/
theorem C15_function_glue_witness :
    let sum := Op.getFunction "sum".toList .dyn
    parseTokens (envOf [sum] (some sum)) digit (toks ["1", "(", "2", ")"]) = .okUninit := by
  have key : (match parseTokens (envOf [Op.getFunction "sum".toList .dyn]
        (some (Op.getFunction "sum".toList .dyn))) digit (toks ["1", "(", "2", ")"]) with
      | .okUninit => true
      | _ => false) = true := by decide +kernel
  revert key
  split
  · rename_i h; intro _; exact h
  · intro h; cases h

/-! ## C16 -/

/-- Every operator node has as many children as its operator demands. -/
inductive ArityOk : Tree V → Prop where
  | const (v i) : ArityOk (.const v i)
  | var (n x i) : ArityOk (.var n x i)
  | op (o cs i) : (o.arity = .dyn ∨ o.arity = .fixed cs.length) → (∀ c ∈ cs, ArityOk c) →
      ArityOk (.op o cs i)

/-- **C16.** Any context, any tokens. -/
theorem C16_arity (E : Env) (strtod : Str → Option V) (tokens : List Str) (t : Tree V)
    (h : parseTokens E strtod tokens = .ok t) : ArityOk t := by
  refine parseIdx_good (Q := ArityOk) (D := fun _ => True) ?_ h
  refine ⟨?_, ?_, ?_, ?_, ?_, ?_, ?_⟩
  · intros; exact .const _ _
  · intros; exact .var _ _ _
  · intros; trivial
  · intros; trivial
  · intros; trivial
  · intros; trivial
  · intro o d cs _ _ ha _ hc
    exact .op o cs _ ha hc

/-- **C16**, operators: the operators of a parsed tree are those of the context. -/
inductive OpsFrom (E : Env) : Tree V → Prop where
  | const (v i) : OpsFrom E (.const v i)
  | var (n x i) : headIs isLetter n = true → (∀ pl, E.lookup n pl = none) → OpsFrom E (.var n x i)
  | op (o cs i) : ((∃ n pl, E.lookup n pl = some o) ∨ E.glue = some o) →
      (∀ c ∈ cs, OpsFrom E c) → OpsFrom E (.op o cs i)

theorem C16_operators_known (E : Env) (strtod : Str → Option V) (tokens : List Str) (t : Tree V)
    (h : parseTokens E strtod tokens = .ok t) : OpsFrom E t := by
  refine parseIdx_good (Q := OpsFrom E) (D := fun d => ∀ o, d.op = some o →
    (∃ n pl, E.lookup n pl = some o) ∨ E.glue = some o) ?_ h
  refine ⟨?_, ?_, ?_, ?_, ?_, ?_, ?_⟩
  · intros; exact .const _ _
  · intro i tok _ _ hl h1 h2 h3 h4
    refine .var _ _ _ hl ?_
    intro pl
    cases pl <;> assumption
  · intro i tok a _ o ho
    cases ho
  · intro i tok pl o a _ hl o' ho'
    simp only [Option.some.injEq] at ho'
    subst ho'
    exact .inl ⟨tok, pl, hl⟩
  · intro i tok o a _ hl o' ho'
    simp only [Option.some.injEq] at ho'
    subst ho'
    exact .inr hl
  · intro d a hd
    exact hd
  · intro o d cs hd ho _ _ hc
    exact .op o cs _ (hd o ho) hc

/-! ## C09 -/

/-- What error code and reported token index have to do with the input. -/
def Offending (E : Env) (strtod : Str → Option V) (tokens : List Str) : PErr → Nat → Prop
  | .expectedInfix, k => ∃ tok, tokens[k]? = some tok ∧ isClosingParen tok = false ∧
      isDelimiter tok = false ∧
      ((isOpeningParen tok = true ∧ (E.glue = none ∨ (E.lookup tok .infix).isSome ∨
          (E.lookup tok .postfix).isSome)) ∨
        (E.glue = none ∧ E.lookup tok .infix = none ∧ E.lookup tok .postfix = none))
  | .unexpectedInfix, k => ∃ tok, tokens[k]? = some tok ∧
      ((E.lookup tok .infix).isSome ∨ (E.lookup tok .postfix).isSome)
  | .excessOpeningParen, k => k = tokens.length ∧ ∃ tok ∈ tokens, isOpeningParen tok = true
  | .unexpectedClosingParen, k => ∃ tok, tokens[k]? = some tok ∧ isClosingParen tok = true
  | .unexpectedDelimiter, k => ∃ tok, tokens[k]? = some tok ∧ isDelimiter tok = true
  | .functionWrongArity, k => ∃ tok, tokens[k]? = some tok ∧
      ((∃ pl o, E.lookup tok pl = some o ∧ o.arity ≠ .dyn) ∨ ∃ g, E.glue = some g ∧ g.arity ≠ .dyn)
  | .unexpectedEndOfExpr, k => k = tokens.length
  | .expectedParamList, k => k = tokens.length ∨ ∃ tok, tokens[k]? = some tok ∧
      isOpeningParen tok = false
  | .unexpectedCharacter, k => ∃ tok, tokens[k]? = some tok ∧ strtod tok = none ∧
      headIs isLetter tok = false ∧ ∀ pl, E.lookup tok pl = none

/-- **C09**, index: on any error the reported index is at most the number of
tokens, and the token there is of the kind the message speaks of. -/
theorem C09_error_token (E : Env) (strtod : Str → Option V) (tokens : List Str) (e : PErr) (k : Nat)
    (h : parseTokens E strtod tokens = .err e k) :
    k ≤ tokens.length ∧ Offending E strtod tokens e k := by
  have hf := parseIdx_err h
  have hk : ∀ tok, (k, tok) ∈ number 0 tokens → k ≤ tokens.length := by
    intro tok ht
    rw [mem_number0] at ht
    have := (List.getElem?_eq_some_iff.mp ht).1
    omega
  cases e with
  | expectedInfix =>
    obtain ⟨tok, h1, h2⟩ := hf
    exact ⟨hk _ h1, tok, (mem_number0 _ _ _).mp h1, h2⟩
  | unexpectedInfix =>
    obtain ⟨tok, h1, _, h2, _⟩ := hf
    exact ⟨hk _ h1, tok, (mem_number0 _ _ _).mp h1, h2⟩
  | excessOpeningParen =>
    obtain ⟨h1, i, tok, h2, h3⟩ := hf
    exact ⟨by omega, h1, tok, List.mem_of_getElem? ((mem_number0 _ _ _).mp h2), h3⟩
  | unexpectedClosingParen =>
    obtain ⟨tok, h1, h2⟩ := hf
    exact ⟨hk _ h1, tok, (mem_number0 _ _ _).mp h1, h2⟩
  | unexpectedDelimiter =>
    obtain ⟨tok, h1, h2⟩ := hf
    exact ⟨hk _ h1, tok, (mem_number0 _ _ _).mp h1, h2⟩
  | functionWrongArity =>
    obtain ⟨tok, h1, h2⟩ := hf
    exact ⟨hk _ h1, tok, (mem_number0 _ _ _).mp h1, h2⟩
  | unexpectedEndOfExpr =>
    have : k = tokens.length := hf
    exact ⟨by omega, this⟩
  | expectedParamList =>
    rcases hf with h1 | ⟨tok, h1, h2⟩
    · exact ⟨by omega, .inl h1⟩
    · exact ⟨hk _ h1, .inr ⟨tok, (mem_number0 _ _ _).mp h1, h2⟩⟩
  | unexpectedCharacter =>
    obtain ⟨tok, h1, h2, h3, _, h4, _⟩ := hf
    exact ⟨hk _ h1, tok, (mem_number0 _ _ _).mp h1, h2, h3, h4⟩

theorem errorPos_eq (ts : List Str) (p k : Nat) (h : k ≤ ts.length) :
    errorPos p ts k = .ok (p + ((ts.take k).flatten).length) := by
  induction ts generalizing p k with
  | nil =>
    have : k = 0 := by simpa using h
    subst this
    simp [errorPos]
  | cons t ts ih =>
    cases k with
    | zero => simp [errorPos]
    | succ k =>
      simp only [List.length_cons] at h
      simp only [errorPos]
      rw [ih _ _ (by omega)]
      simp [Nat.add_assoc]

theorem noDigit_arith {c : Ctx} (hc : ArithLike c) : TokenizerProps.NoDigitKeyword c.keywords := by
  intro k hk
  rw [(Trie.contains_spec _ _).1] at hk
  rcases hc.kwSub k hk with h | h
  · cases k with
    | nil => rfl
    | cons a k =>
      simp only [isWord, List.isEmpty_cons, Bool.not_false, List.all_cons, Bool.true_and,
        Bool.and_eq_true] at h
      exact isLetter_not_isDigit h.1
  · have : ∀ k ∈ arithOps.map (·.name), headIs isDigit k = false := by decide +kernel
    exact this k h

/-- **C07** for the calculator: in each of its contexts tokenization is lossless. -/
theorem C07_calculator (c : Ctx) (hc : ArithLike c) (inp : Str) :
    (tokenize c.keywords inp).flatten = inp ∧ ∀ t ∈ tokenize c.keywords inp, t ≠ [] :=
  TokenizerProps.C07_lossless_partial c.keywords (noDigit_arith hc) inp

/-- **C08** for the calculator. -/
theorem C08_calculator (c : Ctx) (hc : ArithLike c) (inp : Str) :
    Canon (TokenizerProps.keywords c.keywords) inp (tokenize c.keywords inp) :=
  TokenizerProps.C08_canonical_partial c.keywords (noDigit_arith hc) inp

/-- **C09**, column: in every context of the calculator, when parsing a text
fails, the caret is printed (without reading outside the token vector) under the
position in the text, shifted by the prompt, at which the reported token begins;
at the end of the text if the error is reported behind the last token. -/
theorem C09_caret_column (c : Ctx) (hc : ArithLike c) (strtod : Str → Option V) (inp : Str)
    (promptLen : Nat) (e : PErr) (k : Nat) (h : (parseInput c strtod inp).2 = .err e k) :
    ∃ before rest, inp = before ++ rest ∧
      errorPos promptLen (parseInput c strtod inp).1 k = .ok (promptLen + before.length) ∧
      (match (parseInput c strtod inp).1[k]? with
        | some tok => tok <+: rest ∧ errorLength (parseInput c strtod inp).1 k = tok.length
        | none => rest = [] ∧ k = (parseInput c strtod inp).1.length) := by
  set tokens := (parseInput c strtod inp).1 with htok
  have hfl : tokens.flatten = inp :=
    (TokenizerProps.C07_lossless_partial c.keywords (noDigit_arith hc) inp).1
  obtain ⟨hk, -⟩ := C09_error_token c.env strtod tokens e k h
  refine ⟨(tokens.take k).flatten, (tokens.drop k).flatten, ?_, errorPos_eq _ _ _ hk, ?_⟩
  · rw [← List.flatten_append, List.take_append_drop, hfl]
  · cases hg : tokens[k]? with
    | none =>
      rw [List.getElem?_eq_none_iff] at hg
      refine ⟨?_, by omega⟩
      rw [List.drop_eq_nil_of_le (by omega)]
      rfl
    | some tok =>
      refine ⟨?_, by simp [errorLength, hg]⟩
      have : tokens.drop k = tok :: tokens.drop (k + 1) := by
        obtain ⟨hlt, rfl⟩ := List.getElem?_eq_some_iff.mp hg
        exact (List.getElem_cons_drop hlt).symm
      rw [this, List.flatten_cons]
      exact List.prefix_append _ _

/-! ## C20 -/

/-- Position in `tokens` of the k-th token that is no space; the length if there
are only k of them. -/
def position : List Str → Nat → Nat
  | [], _ => 0
  | t :: ts, k =>
    if headIs isSpace t then position ts k + 1
    else match k with
      | 0 => 0
      | k + 1 => position ts k + 1

theorem position_space {t : Str} (h : headIs isSpace t = true) (ts : List Str) (k : Nat) :
    position (t :: ts) k = position ts k + 1 := by
  cases k <;> simp [position, h]

theorem number_filter (ts : List Str) (k : Nat) (f : Nat → Nat)
    (hf : ∀ j, f (k + j) = position ts j + m) :
    (number m ts).filter (fun x => !headIs isSpace x.2)
      = (number k (ts.filter fun t => !headIs isSpace t)).map fun x => (f x.1, x.2) := by
  induction ts generalizing m k with
  | nil => rfl
  | cons t ts ih =>
    simp only [number, List.filter_cons]
    cases hsp : headIs isSpace t with
    | true =>
      simp only [Bool.not_true, Bool.false_eq_true, if_false]
      refine ih (m := m + 1) k ?_
      intro j
      rw [hf, position_space hsp]
      omega
    | false =>
      simp only [Bool.not_false, if_true, number, List.map_cons]
      rw [ih (m := m + 1) (k + 1)]
      · congr 2
        have := hf 0
        simp only [Nat.add_zero, position, hsp, Bool.false_eq_true, if_false, Nat.zero_add] at this
        exact this.symm
      · intro j
        have := hf (j + 1)
        simp only [position, hsp, Bool.false_eq_true, if_false] at this
        rw [show k + 1 + j = k + (j + 1) by omega, this]
        omega

theorem position_length (ts : List Str) :
    position ts (ts.filter fun t => !headIs isSpace t).length = ts.length := by
  induction ts with
  | nil => rfl
  | cons t ts ih =>
    simp only [List.filter_cons]
    cases hsp : headIs isSpace t with
    | true => simpa [position_space hsp] using ih
    | false => simpa [position, hsp] using ih

/-- **C20.** Parsing gives the result of parsing the tokens without the spaces,
with the token numbers (of nodes and errors) translated to positions in the
original sequence. -/
theorem C20_spaces_irrelevant (E : Env) (strtod : Str → Option V) (tokens : List Str) :
    parseTokens E strtod tokens
      = (parseTokens E strtod (tokens.filter fun t => !headIs isSpace t)).mapTok (position tokens) := by
  unfold parseTokens
  rw [parseIdx_filter, number_filter (m := 0) tokens 0 (position tokens) (by intro j; simp),
    ← parseIdx_nat, position_length]

/-- What a user sees of a result: tree without token numbers, or error code. -/
def shape : PRes V → PRes V := PRes.mapTok fun _ => 0

/-- **C20**: sequences that differ only in spaces give the same tree or the same
error. -/
theorem C20_same_shape (E : Env) (strtod : Str → Option V) (ts ts' : List Str)
    (h : ts.filter (fun t => !headIs isSpace t) = ts'.filter (fun t => !headIs isSpace t)) :
    shape (parseTokens E strtod ts) = shape (parseTokens E strtod ts') := by
  have comp : ∀ (f : Nat → Nat) (r : PRes V), shape (r.mapTok f) = shape r := by
    intro f r
    have tcomp : ∀ t : Tree V, (t.mapTok f).mapTok (fun _ => 0) = t.mapTok fun _ => 0 := by
      intro t
      induction t using Tree.induct with
      | hc v i => simp
      | hv n x i => simp
      | ho o cs i ih =>
        simp only [Tree.mapTok_op, List.map_map, Tree.op.injEq, true_and, and_true]
        exact List.map_congr_left (fun c hc => ih c hc)
    cases r with
    | ok t => simp [shape, PRes.mapTok, tcomp]
    | err e k => rfl
    | okUninit => rfl
    | ub => rfl
  rw [C20_spaces_irrelevant E strtod ts, C20_spaces_irrelevant E strtod ts', h, comp, comp]

/-! ## C19 -/

/-- **C19.** With an infix glue operator `g` (known under its own name, which is
no parenthesis, delimiter or space) parsing a token sequence gives, in every
outcome, what parsing the sequence with `g` written between juxtaposed operands
gives when there is no glue operator. -/
theorem C19_juxtaposition (E : Env) (g : Op) (hg : GlueOk E g) (strtod : Str → Option V)
    (tokens : List Str) :
    parseTokens E strtod tokens
      = parseIdx E.noGlue strtod (writeGlue E g.name false (number 0 tokens)) tokens.length :=
  parseIdx_glue hg _ _

/-- **C19** for the calculator: juxtaposition is multiplication. -/
theorem C19_calculator (c : Ctx) (hc : ArithLike c) (strtod : Str → Option V) (tokens : List Str) :
    parseTokens c.env strtod tokens
      = parseIdx c.env.noGlue strtod (writeGlue c.env "*".toList false (number 0 tokens))
          tokens.length := by
  refine C19_juxtaposition c.env mulOp ⟨hc.glue_env, rfl, rfl, ?_, ?_, ?_, ?_, ?_⟩ strtod tokens
  · rw [hc.lookup_env]
    obtain ⟨us, h1, -⟩ := hc.ops
    rw [h1, findOp_append]
    have : Ctx.findOp builtin mulOp.name .infix = some (6, mulOp) := by decide +kernel
    rw [this]
    rfl
  all_goals decide

/-! ## Non-vacuity -/

def demoOps : List Op :=
  [Op.getInfix "+".toList 2 .left, Op.getInfix "*".toList 4 .left, Op.getInfix "^".toList 5 .right,
   Op.getPrefix "-".toList 7, Op.getPostfix "!".toList 6, Op.getFunction "sum".toList .dyn]

def demo : Env := envOf demoOps (some (Op.getInfix "*".toList 4 .left))

theorem demo_wf : WFEnv demo := by
  constructor
  · intro tok pl o h
    have h1 := List.find?_some h
    simp only [Bool.and_eq_true, beq_iff_eq] at h1
    have hm := List.mem_of_find?_eq_some h
    have : ∀ o ∈ demoOps, WFOp o := by decide +kernel
    exact ⟨h1.2, this o hm⟩
  · intro o h
    simp only [demo, envOf, Option.some.injEq] at h
    subst h
    exact ⟨rfl, by decide⟩

/-- The outcome is a tree. -/
def isTree : PRes V → Bool
  | .ok _ => true
  | _ => false

example : delimsOk false [] (toks ["2", "sum", "(", "1", ",", "(", "3", ")", "!", ",", "sum", "(", "4", ",", "5", ")", ")"]) = true := by
  decide

example : isTree (parseTokens demo digit
    (toks ["2", " ", "sum", "(", "1", ",", "(", "3", ")", "!", ",", "sum", "(", "4", ",", "5", ")", ")"])) = true := by
  decide +kernel

example : writeGlue demo "*".toList false (number 0 (toks ["2", "(", "3", ")", "x", "!"])) =
    [(0, ['2']), (1, ['*']), (1, ['(']), (2, ['3']), (3, [')']), (4, ['*']), (4, ['x']), (5, ['!'])] := by
  decide +kernel

example : (match parseTokens demo digit (toks ["1", "+", ")"]) with
    | .err .unexpectedClosingParen 2 => true | _ => false) = true := by decide +kernel

example : ∃ c, arithCtx = .ok c ∧ ArithLike c := arithCtx_ok

end Verif.ParserProps
