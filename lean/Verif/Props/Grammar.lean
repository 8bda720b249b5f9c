import Verif.Lemmas.GrammarSound
import Verif.Props.Parser

/-!
# C57: the parser implements the precedence grammar
-/

namespace Verif.GrammarProps
open Verif ParserProps
variable {V : Type}

/-- The tokens that are no spaces, with their positions. -/
def significant (tokens : List Str) : List (Nat × Str) :=
  (number 0 tokens).filter fun x => !headIs isSpace x.2

/-- **C57**, one direction: whatever the grammar derives is parsed, and to the
tree the grammar assigns, with or without a glue operator. -/
theorem C57_accepts (E : Env) (hE : OpShape E) (strtod : Str → Option V) (tokens : List Str)
    (t : Tree V) (le rs : List Op) (h : Expr E strtod (significant tokens) t le rs) :
    parseTokens E strtod tokens = .ok t := by
  unfold parseTokens
  rw [parseIdx_filter]
  exact expr_parse hE h _

/-- **C57.** The grammar assigns at most one tree. -/
theorem C57_unambiguous (E : Env) (hE : OpShape E) (strtod : Str → Option V) (ts : List (Nat × Str))
    (t t' : Tree V) (le rs le' rs' : List Op) (h : Expr E strtod ts t le rs)
    (h' : Expr E strtod ts t' le' rs') : t = t' := by
  have h1 := expr_parse hE h 0
  rw [expr_parse hE h' 0] at h1
  cases h1
  rfl

/-- **C57**, other direction, for token sequences in which no closing parenthesis
directly follows an operator (the full statement has no such hypothesis; see the
witness below).  Context without glue operator. -/
theorem C57_only_partial (E : Env) (hE : WFEnv E) (hg : E.glue = none) (strtod : Str → Option V)
    (tokens : List Str) (hd : NoDangling E ((significant tokens).map (·.2))) (t : Tree V)
    (h : parseTokens E strtod tokens = .ok t) :
    ∃ le rs, Expr E strtod (significant tokens) t le rs := by
  unfold parseTokens at h
  rw [parseIdx_filter] at h
  refine parse_expr hE hg ?_ hd h
  intro x hx
  have := (List.mem_filter.mp hx).2
  simpa using this

theorem Expr.noGlue {E : Env} {strtod : Str → Option V} {ts : List (Nat × Str)} {t : Tree V}
    {le rs : List Op} (h : Expr E.noGlue strtod ts t le rs) : Expr E strtod ts t le rs := by
  refine Expr.rec (motive_1 := fun ts t le rs _ => Expr E strtod ts t le rs)
    (motive_2 := fun ts as _ => Args E strtod ts as) ?_ ?_ ?_ ?_ ?_ ?_ ?_ ?_ ?_ ?_ ?_ h
  · intro i tok v h1 h2 h3 h4; exact .number h1 h2 h3 h4
  · intro i tok h1 h2 h3 h4 h5 h6 h7; exact .variable h1 h2 h3 h4 h5 h6 h7
  · intro i tok f h1 h2 h3; exact .constant h1 h2 h3
  · intro i tok f j p k q h1 h2 h3 h4 h5; exact .call0 h1 h2 h3 h4 h5
  · intro i tok f j p k q ts as h1 h2 h3 h4 _ h6 ih; exact .call h1 h2 h3 h4 ih h6
  · intro j p k q ts t le rs h1 _ h3 ih; exact .paren h1 ih h3
  · intro i tok o ts t le rs h1 h2 h3 _ h5 ih; exact .prefix h1 h2 h3 ih h5
  · intro i tok o ta a lea rsa tb b leb rsb h1 h2 _ h4 _ h6 ih1 ih2; exact .infix h1 h2 ih1 h4 ih2 h6
  · intro i tok o ta a lea rsa h1 h2 h3 _ h5 ih; exact .postfix h1 h2 h3 ih h5
  · intro ts t le rs _ ih; exact .one ih
  · intro ts t le rs i d ts' as _ h2 _ ih1 ih2; exact .more ih1 h2 ih2

/-- **C57** for a context with a glue operator: the expression is the input with
the glue operator written between juxtaposed operands. -/
theorem C57_only_glue_partial (E : Env) (hE : WFEnv E) (g : Op) (hg : GlueOk E g)
    (strtod : Str → Option V) (tokens : List Str)
    (hd : NoDangling E (((writeGlue E g.name false (number 0 tokens)).filter
      fun x => !headIs isSpace x.2).map (·.2))) (t : Tree V)
    (h : parseTokens E strtod tokens = .ok t) :
    ∃ le rs, Expr E strtod ((writeGlue E g.name false (number 0 tokens)).filter
      fun x => !headIs isSpace x.2) t le rs := by
  rw [C19_juxtaposition E g hg, parseIdx_filter] at h
  have hE' : WFEnv E.noGlue := ⟨hE.op, fun o ho => nomatch ho⟩
  obtain ⟨le, rs, hx⟩ := parse_expr hE' rfl (fun x hx => by
    have := (List.mem_filter.mp hx).2
    simpa using this) hd h
  exact ⟨le, rs, Expr.noGlue hx⟩

/-! ### Which inputs are wrongly accepted -/

/-- Names of infix and prefix operators are not used otherwise. -/
def OpNames (E : Env) (strtod : Str → Option V) : Prop :=
  ∀ tok, (E.lookup tok .infix).isSome ∨ (E.lookup tok .prefix).isSome →
    E.lookup tok .function = none ∧ E.lookup tok .postfix = none ∧ strtod tok = none ∧
    isClosingParen tok = false

/-- `x` is no operator name. -/
def NotOp (E : Env) (x : Str) : Prop := E.lookup x .infix = none ∧ E.lookup x .prefix = none

theorem noDangling_append {E : Env} {a b : List Str} (ha : NoDangling E a) (hb : NoDangling E b)
    (hab : ∀ x c, a.getLast? = some x → b.head? = some c → isClosingParen c = true → NotOp E x) :
    NoDangling E (a ++ b) := by
  intro u x c v he hc
  rw [List.append_eq_append_iff] at he
  rcases he with ⟨w, rfl, rfl⟩ | ⟨w, rfl, h2⟩
  · exact hb w x c v rfl hc
  · cases w with
    | nil =>
      simp only [List.nil_append] at h2
      exact hb [] x c v h2.symm hc
    | cons y w =>
      simp only [List.cons_append, List.cons.injEq] at h2
      obtain ⟨rfl, h2⟩ := h2
      cases w with
      | nil =>
        simp only [List.nil_append] at h2
        subst h2
        exact hab x c (List.getLast?_concat ..) rfl hc
      | cons z w =>
        simp only [List.cons_append, List.cons.injEq] at h2
        obtain ⟨rfl, rfl⟩ := h2
        exact ha u x c w rfl hc

theorem noDangling_single {E : Env} (x : Str) : NoDangling E [x] := by
  intro u y c v he hc
  have := congrArg List.length he
  simp at this
  omega

/-- Begins with no closing parenthesis, ends with no operator, nothing dangling. -/
structure Solid (E : Env) (ts : List Str) : Prop where
  head : ∃ c, ts.head? = some c ∧ isClosingParen c = false
  last : ∃ x, ts.getLast? = some x ∧ NotOp E x
  dang : NoDangling E ts

variable {E : Env} {strtod : Str → Option V}

theorem Solid.single {x : Str} (h1 : isClosingParen x = false) (h2 : NotOp E x) : Solid E [x] :=
  ⟨⟨x, rfl, h1⟩, ⟨x, rfl, h2⟩, noDangling_single x⟩

theorem Solid.append {a b : List Str} (ha : Solid E a) (hb : Solid E b) : Solid E (a ++ b) := by
  obtain ⟨c, hc, hc'⟩ := ha.head
  obtain ⟨x, hx, hx'⟩ := hb.last
  obtain ⟨y, hy, hy'⟩ := ha.last
  refine ⟨⟨c, ?_, hc'⟩, ⟨x, ?_, hx'⟩, noDangling_append ha.dang hb.dang ?_⟩
  · cases a with
    | nil => cases hc
    | cons => exact hc
  · rw [List.getLast?_append, hx]; rfl
  · intro z d hz _ _
    rw [hy] at hz
    cases hz
    exact hy'

theorem Solid.cons {b : List Str} {x : Str} (h1 : isClosingParen x = false) (hb : Solid E b) :
    Solid E (x :: b) := by
  obtain ⟨y, hy, hy'⟩ := hb.last
  obtain ⟨c, hc, hc'⟩ := hb.head
  refine ⟨⟨x, rfl, h1⟩, ⟨y, ?_, hy'⟩, ?_⟩
  · rw [List.getLast?_cons, hy]; rfl
  · refine noDangling_append (noDangling_single x) hb.dang ?_
    intro z d _ hd hcl
    rw [hc] at hd
    cases hd
    rw [hc'] at hcl
    cases hcl

theorem Solid.snoc {a : List Str} {x : Str} (ha : Solid E a) (hx : NotOp E x) : Solid E (a ++ [x]) := by
  obtain ⟨y, hy, hy'⟩ := ha.last
  obtain ⟨c, hc, hc'⟩ := ha.head
  refine ⟨⟨c, ?_, hc'⟩, ⟨x, ?_, hx⟩, ?_⟩
  · cases a with
    | nil => cases hc
    | cons => exact hc
  · exact List.getLast?_concat ..
  · refine noDangling_append ha.dang (noDangling_single x) ?_
    intro z d hz _ _
    rw [hy] at hz
    cases hz
    exact hy'

theorem OpNames.notOp (hn : OpNames E strtod) {x : Str}
    (h : E.lookup x .function ≠ none ∨ E.lookup x .postfix ≠ none ∨ strtod x ≠ none ∨
      isClosingParen x = true) : NotOp E x := by
  have key : ¬ ((E.lookup x .infix).isSome ∨ (E.lookup x .prefix).isSome) := by
    intro hs
    obtain ⟨h1, h2, h3, h4⟩ := hn x hs
    rcases h with h | h | h | h
    · exact h h1
    · exact h h2
    · exact h h3
    · rw [h4] at h; cases h
  simp only [not_or, Bool.not_eq_true, Option.isSome_eq_false_iff, Option.isNone_iff_eq_none] at key
  exact key

/-- Expressions never have a closing parenthesis directly after an operator. -/
theorem expr_solid (hn : OpNames E strtod) (hop : ∀ p, isOpeningParen p = true → NotOp E p)
    {ts : List (Nat × Str)} {t : Tree V} {le rs : List Op} (h : Expr E strtod ts t le rs) :
    Solid E (ts.map (·.2)) := by
  have hopc : ∀ p, isOpeningParen p = true → isClosingParen p = false := by
    intro p hp
    simp only [isOpeningParen, Bool.or_eq_true, beq_iff_eq] at hp
    rcases hp with rfl | rfl <;> rfl
  have hdc : ∀ p, isDelimiter p = true → isClosingParen p = false := by
    intro p hp
    simp only [isDelimiter, beq_iff_eq] at hp
    subst hp; rfl
  refine Expr.rec (motive_1 := fun ts _ _ _ _ => Solid E (ts.map (·.2)))
    (motive_2 := fun ts _ _ => Solid E (ts.map (·.2))) ?_ ?_ ?_ ?_ ?_ ?_ ?_ ?_ ?_ ?_ ?_ h
  · intro i tok v h1 h2 h3 h4; exact .single h1.2.2.1 (hn.notOp (by simp [h4]))
  · intro i tok h1 h2 h3 h4 h5 h6 h7; exact .single h1.2.2.1 ⟨h5, h3⟩
  · intro i tok f h1 h2 h3; exact .single h1.2.2.1 (hn.notOp (by simp [h2]))
  · intro i tok f j p k q h1 h2 h3 h4 h5
    have := (Solid.single (hopc _ h4) (hop _ h4)).snoc (hn.notOp (.inr (.inr (.inr h5))))
    exact this.cons h1.2.2.1
  · intro i tok f j p k q ts as h1 h2 h3 h4 _ h6 ih
    have := ((ih.cons (hopc _ h4)).cons h1.2.2.1).snoc (hn.notOp (.inr (.inr (.inr h6))))
    simpa using this
  · intro j p k q ts t le rs h1 _ h3 ih
    have := (ih.cons (hopc _ h1)).snoc (hn.notOp (.inr (.inr (.inr h3))))
    simpa using this
  · intro i tok o ts t le rs h1 h2 h3 _ h5 ih
    exact ih.cons h1.2.2.1
  · intro i tok o ta a lea rsa tb b leb rsb h1 h2 _ h4 _ h6 ih1 ih2
    have := ih1.append (ih2.cons h1.2.2.1)
    simpa using this
  · intro i tok o ta a lea rsa h1 h2 h3 _ h5 ih
    have := ih.snoc (hn.notOp (x := tok) (by simp [h3]))
    simpa using this
  · intro ts t le rs _ ih; exact ih
  · intro ts t le rs i d ts' as _ h2 _ ih1 ih2
    have := ih1.append (ih2.cons (hdc _ h2))
    simpa using this

/-- **C57**, exact: if operator names are not ambiguous, the derivable token
sequences are those that are accepted and have no closing parenthesis directly
after an operator. -/
theorem C57_exact_partial (E : Env) (hE : WFEnv E) (hg : E.glue = none) (strtod : Str → Option V)
    (hn : OpNames E strtod) (hop : ∀ p, isOpeningParen p = true → NotOp E p) (tokens : List Str)
    (t : Tree V) :
    (∃ le rs, Expr E strtod (significant tokens) t le rs) ↔
      parseTokens E strtod tokens = .ok t ∧ NoDangling E ((significant tokens).map (·.2)) :=
  ⟨fun ⟨le, rs, h⟩ => ⟨C57_accepts E hE.shape strtod tokens t le rs h, (expr_solid hn hop h).dang⟩,
   fun ⟨h, hd⟩ => C57_only_partial E hE hg strtod tokens hd t h⟩

/-- **C57**, what the grammar means for the calculator, whatever functions the user
has added: sums and differences group to the left, a product binds stronger than a
quotient (so `a/b*c` is `a/(b*c)`), both bind stronger than sums, powers group to
the right and bind stronger than products, and a sign binds stronger than a power
(so `-x^2` is `(-x)^2`). -/
theorem C57_conventions (c : Ctx) (hc : ArithLike c) : ∃ add sub mul div pow neg fac : Op,
    c.env.lookup "+".toList .infix = some add ∧ c.env.lookup "-".toList .infix = some sub ∧
    c.env.lookup "*".toList .infix = some mul ∧ c.env.lookup "/".toList .infix = some div ∧
    c.env.lookup "^".toList .infix = some pow ∧ c.env.lookup "-".toList .prefix = some neg ∧
    c.env.lookup "!".toList .postfix = some fac ∧
    Closes add sub ∧ Closes sub add ∧ Closes add add ∧ Closes sub sub ∧
    Closes mul mul ∧ Closes div div ∧ Closes add div ∧ ¬ Closes div add ∧
    ¬ Closes mul div ∧ Closes div mul ∧ ¬ Closes pow pow ∧ ¬ Closes pow mul ∧ Closes mul pow ∧
    Closes pow neg ∧ ¬ Closes fac pow ∧ Closes fac neg := by
  have key : ∀ n pl o, (Ctx.findOp builtin n pl).map (·.2) = some o → c.env.lookup n pl = some o := by
    intro n pl o h
    rw [hc.lookup_env]
    obtain ⟨us, h1, -⟩ := hc.ops
    rw [h1, findOp_append]
    cases hf : Ctx.findOp builtin n pl with
    | none => rw [hf] at h; cases h
    | some p => rw [hf] at h; exact h
  refine ⟨_, _, _, _, _, _, _, key _ _ ⟨"+".toList, 4, .fixed 2, 2, .left, .infix⟩ (by decide +kernel),
    key _ _ ⟨"-".toList, 5, .fixed 2, 2, .left, .infix⟩ (by decide +kernel),
    key _ _ ⟨"*".toList, 6, .fixed 2, 4, .left, .infix⟩ (by decide +kernel),
    key _ _ ⟨"/".toList, 7, .fixed 2, 3, .left, .infix⟩ (by decide +kernel),
    key _ _ ⟨"^".toList, 8, .fixed 2, 5, .right, .infix⟩ (by decide +kernel),
    key _ _ ⟨"-".toList, 12, .fixed 1, 7, .left, .prefix⟩ (by decide +kernel),
    key _ _ ⟨"!".toList, 13, .fixed 1, 6, .left, .postfix⟩ (by decide +kernel), ?_⟩
  unfold Closes
  decide

/-! ### Witness and examples -/

theorem demo_op {tok : Str} {pl : Placement} {o : Op} (h : demo.lookup tok pl = some o) :
    o.name = tok ∧ o.placement = pl ∧ o ∈ demoOps := by
  have h1 := List.find?_some h
  simp only [Bool.and_eq_true, beq_iff_eq] at h1
  have hm := List.mem_of_find?_eq_some h
  exact ⟨h1.1, h1.2, hm⟩

theorem demo_names : OpNames demo digit := by
  intro tok h
  have hm : tok ∈ (demoOps.filter fun o => o.placement == .infix || o.placement == .prefix).map (·.name) := by
    simp only [Option.isSome_iff_exists] at h
    rcases h with ⟨o, h⟩ | ⟨o, h⟩ <;> obtain ⟨h1, h2, h3⟩ := demo_op h <;>
      exact List.mem_map.2 ⟨o, List.mem_filter.2 ⟨h3, by simp [h2]⟩, h1⟩
  have key : ∀ tok ∈ (demoOps.filter fun o => o.placement == .infix || o.placement == .prefix).map (·.name),
      demo.lookup tok .function = none ∧ demo.lookup tok .postfix = none ∧ digit tok = none ∧
      isClosingParen tok = false := by decide +kernel
  exact key tok hm

theorem demo_open (p : Str) (hp : isOpeningParen p = true) : NotOp demo p := by
  simp only [isOpeningParen, Bool.or_eq_true, beq_iff_eq] at hp
  rcases hp with rfl | rfl <;> exact ⟨by decide +kernel, by decide +kernel⟩

/-- **C57**, negation of the full statement: `1+sum(-)` is accepted, as
`(-1)+sum()`, but the grammar does not derive it. -/
theorem C57_dangling_witness :
    (∃ t, parseTokens demo digit (toks ["1", "+", "sum", "(", "-", ")"]) = .ok t) ∧
    ¬ ∃ t le rs, Expr demo digit (significant (toks ["1", "+", "sum", "(", "-", ")"])) t le rs := by
  constructor
  · have key : (match parseTokens demo digit (toks ["1", "+", "sum", "(", "-", ")"]) with
      | .ok _ => true
      | _ => false) = true := by decide +kernel
    revert key
    split
    · rename_i t h; intro _; exact ⟨t, h⟩
    · intro h; cases h
  · rintro ⟨t, le, rs, h⟩
    have := (expr_solid demo_names demo_open h).dang
    have := (this (toks ["1", "+", "sum", "("]) "-".toList ")".toList [] (by decide +kernel) rfl).2
    revert this
    decide +kernel

/-- `1+2^3^4*-5!`: derivable, so accepted; hypotheses of the theorems are met. -/
example : NoDangling demo ((significant (toks ["1", "+", "2", "^", "3", "^", "4", "!"])).map (·.2)) := by
  intro a x c b h hc
  have : c ∈ ((significant (toks ["1", "+", "2", "^", "3", "^", "4", "!"])).map (·.2)) := by
    rw [h]; simp
  have key : ∀ c ∈ ((significant (toks ["1", "+", "2", "^", "3", "^", "4", "!"])).map (·.2)),
      isClosingParen c = false := by decide +kernel
  rw [key c this] at hc
  cases hc

/-- `1 ^ 2 ^ 3` groups to the right. -/
example : ∃ t, Expr demo digit (significant (toks ["1", "^", " ", "2", "^", "3"])) t
    [Op.getInfix "^".toList 5 .right] (List.replicate 2 (Op.getInfix "^".toList 5 .right)) := by
  have n : ∀ i (s : Str) (v : Nat), Plain s → demo.lookup s .function = none →
      demo.lookup s .prefix = none → digit s = some v → Expr demo digit [(i, s)] (.const v i) [] [] :=
    fun i s v h1 h2 h3 h4 => .number h1 h2 h3 h4
  have pl : ∀ s ∈ toks ["1", "2", "3", "^"], Plain s := by
    unfold Plain; decide +kernel
  have a := n 0 "1".toList 1 (pl _ (by decide)) (by decide +kernel) (by decide +kernel) (by decide +kernel)
  have b := n 3 "2".toList 2 (pl _ (by decide)) (by decide +kernel) (by decide +kernel) (by decide +kernel)
  have c := n 5 "3".toList 3 (pl _ (by decide)) (by decide +kernel) (by decide +kernel) (by decide +kernel)
  have bc := Expr.infix (i := 4) (tok := "^".toList) (o := Op.getInfix "^".toList 5 .right)
    (pl _ (by decide)) (by decide +kernel) b (by simp) c (by simp)
  have abc := Expr.infix (i := 1) (tok := "^".toList) (o := Op.getInfix "^".toList 5 .right)
    (pl _ (by decide)) (by decide +kernel) a (by simp) bc (by
      intro y hy
      simp only [List.nil_append, List.mem_singleton] at hy
      subst hy
      unfold Closes
      decide +kernel)
  have : significant (toks ["1", "^", " ", "2", "^", "3"])
      = [(0, "1".toList)] ++ (1, "^".toList) :: ([(3, "2".toList)] ++ (4, "^".toList) :: [(5, "3".toList)]) := by
    decide +kernel
  rw [this]
  exact ⟨_, abc⟩

example : WFEnv demo.noGlue ∧ demo.noGlue.glue = none := ⟨⟨demo_wf.op, fun _ h => nomatch h⟩, rfl⟩

end Verif.GrammarProps
