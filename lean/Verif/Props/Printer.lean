import Verif.Lemmas.PrinterText
import Verif.Props.Grammar

/-!
# C17, C18: printed expressions parse back to the tree

Trees are compared by `Tree.shape`, i.e. without the token numbers and variable
ids that a printed text cannot carry.
-/

namespace Verif.PrinterProps
open Verif ParserProps GrammarProps
variable {V : Type}

theorem significant_map (ts : List Str) : (GrammarProps.significant ts).map (·.2) = sig ts := by
  have key : ∀ k, ((number k ts).filter fun x => !headIs isSpace x.2).map (·.2) = sig ts := by
    induction ts with
    | nil => intro k; rfl
    | cons a ts ih =>
      intro k
      cases h : headIs isSpace a with
      | true => simp only [number, List.filter_cons, h]; simpa [sig, List.filter_cons, h] using ih (k + 1)
      | false => simp only [number, List.filter_cons, h]; simpa [sig, List.filter_cons, h] using ih (k + 1)
  exact key 0

/-- **C17** (partial).  The full statement quantifies over every context and every
tree of it.  Here the tree must be writable at all (`Printable`: names resolve,
constants are read back) and the context must keep postfix operators apart from
right-associative infix operators (`PrecOk`; see the witness below).  Then the
printer's tokens parse, to the same tree. -/
theorem C17_roundtrip_partial (E : Env) (hE : WFEnv E) (hP : PrecOk E) (strtod : Str → Option V)
    (fmt : V → Str) (t : Tree V) (ht : Printable E strtod fmt t) :
    ∃ ts t', printTree fmt id t false false = .ok ts ∧ parseTokens E strtod ts = .ok t' ∧
      t'.shape = t.shape := by
  obtain ⟨ts, h1, h2⟩ := print_spells hE.shape hP ht false false
  obtain ⟨t', le, rs, h3, h4, -, -⟩ := h2 (GrammarProps.significant ts) (significant_map ts)
  exact ⟨ts, t', h1, C57_accepts E hE.shape strtod ts t' le rs h3, h4⟩

/-- Two trees with the same printed tokens are the same. -/
theorem C17_injective_partial (E : Env) (hE : WFEnv E) (hP : PrecOk E) (strtod : Str → Option V)
    (fmt : V → Str) (t u : Tree V) (ht : Printable E strtod fmt t) (hu : Printable E strtod fmt u)
    (h : printTree fmt id t false false = printTree fmt id u false false) : t.shape = u.shape := by
  obtain ⟨ts, t', h1, h2, h3⟩ := C17_roundtrip_partial E hE hP strtod fmt t ht
  obtain ⟨us, u', g1, g2, g3⟩ := C17_roundtrip_partial E hE hP strtod fmt u hu
  rw [h1, g1] at h
  cases h
  rw [h2] at g2
  cases g2
  rw [← h3, ← g3]

/-- **C18** (partial: constants must have a rendering of digits and dots that is
read back to the same value; the full statement also has constants that `%g`
rounds).  In the calculator's context with any user functions, tokenizing and
parsing the printed text yields the tree. -/
theorem C18_text_partial (c : Ctx) (hc : ArithLike c) (strtod : Str → Option V) (fmt : V → Str)
    (t : Tree V) (ht : ArithTree c.env strtod fmt t) :
    ∃ s t', treeToStr fmt t = .ok s ∧ (parseInput c strtod s).2 = .ok t' ∧ t'.shape = t.shape := by
  obtain ⟨ts, t', h1, h2, h3⟩ :=
    C17_roundtrip_partial c.env hc.wf hc.precOk strtod fmt t (ht.printable hc)
  refine ⟨ts.flatten, t', by simp [treeToStr, h1, Res.ok_bind], ?_, h3⟩
  have h4 := neat_canon hc (print_neat hc ht false false h1)
  have h5 := C08_calculator c hc ts.flatten
  rw [TokenizerProps.keywords_eq] at h5
  have h6 := TokenizerProps.C08_canonical_unique h5 h4
  simp only [parseInput, h6]
  exact h2

/-! ### Witnesses and examples -/

/-- A renderer for the examples: one digit. -/
def dig (n : Nat) : Str := [Char.ofNat (48 + n)]

def okShape (r : PRes V) (p : Tree V → Bool) : Bool :=
  match r with
  | .ok t => p t
  | _ => false

/-- Text of a printed tree. -/
def text (r : Res (List Str)) : Option String :=
  match r with
  | .ok ts => some (String.ofList ts.flatten)
  | _ => none

def clashOps : List Op := [Op.getInfix "^".toList 5 .right, Op.getPostfix "!".toList 5]

def rootName : Tree V → Str
  | .op o _ _ => o.name
  | _ => []

/-- **C17**, negation of the full statement: with a postfix operator on the level
of a right-associative infix operator (a context that `ctx_add_op` accepts),
`x^(y!)` is printed as `x^y!` and comes back as `(x^y)!`. -/
theorem C17_clash_witness :
    (∃ c, Ctx.create.addOps clashOps = .ok (c, true)) ∧
    ∃ t : Tree Nat, rootName t = "^".toList ∧
      text (printTree dig id t false false) = some "x^y!" ∧
      okShape (parseTokens (envOf clashOps none) digit (toks ["x", "^", "y", "!"]))
        (fun t' => rootName t' == "!".toList) = true := by
  constructor
  · have key : (match Ctx.create.addOps clashOps with | .ok (_, b) => b | _ => false) = true := by
      decide +kernel
    revert key
    split
    · rename_i c b h
      rintro rfl
      exact ⟨c, h⟩
    · intro h; cases h
  · exact ⟨.op (Op.getInfix "^".toList 5 .right) [.var "x".toList 0 0,
      .op (Op.getPostfix "!".toList 5) [.var "y".toList 0 0] 0] 0, rfl, by decide +kernel, by decide +kernel⟩

/-- **C18**: why negative constants are excluded.  The constant `-5` is printed
`-5`, which comes back as an application of the operator `-`. -/
theorem C18_negative_witness :
    text (printTree (fun _ : Int => "-5".toList) id (.const (-5) 0) false false) = some "-5" ∧
    ∃ c, arithCtx = .ok c ∧ okShape (parseInput c digit "-5".toList).2
      (fun t => rootName t == "-".toList) = true := by
  refine ⟨by decide +kernel, ?_⟩
  have key : (match arithCtx with
    | .ok c => okShape (parseInput c digit "-5".toList).2 (fun t => rootName t == "-".toList)
    | _ => false) = true := by decide +kernel
  revert key
  split
  · rename_i c h
    intro key
    exact ⟨c, h, key⟩
  · intro h; cases h

/-- **C18**: why constants in exponent notation are excluded.  `1e+20`, the text of
the constant 10^20, comes back as a sum, of `1*e` and `20`. -/
theorem C18_exponent_witness :
    ∃ c, arithCtx = .ok c ∧ okShape
      (parseInput c (fun s => if s.all isDigit then some s else none) "1e+20".toList).2
      (fun t => match t with
        | .op o [.op p [.const _ _, .op k [] _] _, .const _ _] _ =>
          o.name == "+".toList && p.name == "*".toList && k.name == "e".toList
        | _ => false) = true := by
  have key : (match arithCtx with
    | .ok c => okShape (parseInput c (fun s => if s.all isDigit then some s else none) "1e+20".toList).2
      (fun t => match t with
        | .op o [.op p [.const _ _, .op k [] _] _, .const _ _] _ =>
          o.name == "+".toList && p.name == "*".toList && k.name == "e".toList
        | _ => false)
    | _ => false) = true := by decide +kernel
  revert key
  split
  · rename_i c h
    intro key
    exact ⟨c, h, key⟩
  · intro h; cases h

theorem demo_prec : PrecOk demo := by
  refine ⟨?_, ?_, ?_⟩
  · intro s o s' o' h h'
    obtain ⟨-, h2, h3⟩ := demo_op h
    obtain ⟨-, g2, g3⟩ := demo_op h'
    have key : ∀ a ∈ demoOps, ∀ b ∈ demoOps, a.placement = .infix → b.placement = .infix →
      a.prec = b.prec → a.assoc = b.assoc := by decide +kernel
    exact key o h3 o' g3 h2 g2
  · intro s o h
    obtain ⟨-, h2, h3⟩ := demo_op h
    have key : ∀ a ∈ demoOps, a.placement = .postfix → a.assoc = .left := by decide +kernel
    exact key o h3 h2
  · intro s o s' o' h h'
    obtain ⟨-, h2, h3⟩ := demo_op h
    obtain ⟨-, g2, g3⟩ := demo_op h'
    have key : ∀ a ∈ demoOps, ∀ b ∈ demoOps, a.placement = .postfix → b.placement = .infix →
      b.assoc = .right → a.prec ≠ b.prec := by decide +kernel
    exact key o h3 o' g3 h2 g2

/-- `(1+2)^-3` -/
def sample (k : Nat) : Tree Nat :=
  .op (Op.getInfix "^".toList 5 .right)
    [.op (Op.getInfix "+".toList 2 .left) [.const 1 k, .const 2 k] k,
     .op (Op.getPrefix "-".toList 7) [.const 3 k] k] k

example : text (printTree dig id (sample 0) false false) = some "(1+2)^(-3)" := by decide +kernel

instance (s : Str) : Decidable (Plain s) := by unfold Plain; infer_instance

example : Printable demo digit dig (sample 0) := by
  have k : ∀ n, n = 1 ∨ n = 2 ∨ n = 3 → Printable demo digit dig (.const n 0) := by
    rintro n (rfl | rfl | rfl) <;>
      exact .const (by decide +kernel) (by decide +kernel) (by decide +kernel) (by decide +kernel)
  refine .op (by decide +kernel) (by decide +kernel) (by decide +kernel) (by decide +kernel) (by decide +kernel) ?_
  intro c hc
  simp only [List.mem_cons, List.not_mem_nil, or_false] at hc
  rcases hc with rfl | rfl
  · refine .op (by decide +kernel) (by decide +kernel) (by decide +kernel) (by decide +kernel) (by decide +kernel) ?_
    intro c hc
    simp only [List.mem_cons, List.not_mem_nil, or_false] at hc
    rcases hc with rfl | rfl
    · exact k 1 (by simp)
    · exact k 2 (by simp)
  · refine .op (by decide +kernel) (by decide +kernel) (by decide +kernel) (by decide +kernel) (by decide +kernel) ?_
    intro c hc
    simp only [List.mem_cons, List.not_mem_nil, or_false] at hc
    subst hc
    exact k 3 (by simp)

/-- `2 mod x` in the calculator. -/
example : ∃ c, arithCtx = .ok c ∧ ArithLike c ∧ ∃ o : Op, o.name = "mod".toList ∧
    ArithTree c.env digit dig (.op o [.const 2 0, .var "x".toList 0 0] 0) := by
  obtain ⟨c, hc, ha⟩ := arithCtx_ok
  refine ⟨c, hc, ha, ?_⟩
  have key : (match arithCtx with
    | .ok c => (match c.env.lookup "mod".toList .infix with
        | some o => o.name == "mod".toList && o.placement == .infix && o.arity == .fixed 2
        | none => false) && (c.env.lookup "x".toList .function).isNone && (c.env.lookup "x".toList .infix).isNone
    | _ => false) = true := by decide +kernel
  rw [hc] at key
  simp only [Bool.and_eq_true, Option.isNone_iff_eq_none] at key
  obtain ⟨⟨h1, h2⟩, h3⟩ := key
  cases ho : c.env.lookup "mod".toList .infix with
  | none => rw [ho] at h1; cases h1
  | some o =>
    rw [ho] at h1
    simp only [Bool.and_eq_true, beq_iff_eq] at h1
    obtain ⟨⟨g1, g2⟩, g3⟩ := h1
    refine ⟨o, g1, .op (by rw [g1, g2, ho]) (.inr g3) ?_⟩
    intro t ht
    simp only [List.mem_cons, List.not_mem_nil, or_false] at ht
    rcases ht with rfl | rfl
    · exact .const (by decide) (by decide) (by decide)
    · exact .var (by decide) (by decide) h2 h3 (by decide)

end Verif.PrinterProps
