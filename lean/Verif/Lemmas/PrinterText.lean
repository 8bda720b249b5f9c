import Verif.Lemmas.Printer
import Verif.Lemmas.ArithContext
import Verif.Spec.ArithTree
import Verif.Props.Tokenizer
import Mathlib.Data.List.Chain

/-!
# Printed text of the calculator tokenizes to the printed pieces
-/

namespace Verif
variable {V : Type} {strtod : Str → Option V} {fmt : V → Str} {c : Ctx}

theorem ArithLike.env_op (h : ArithLike c) {n : Str} {pl : Placement} {o : Op}
    (ho : c.env.lookup n pl = some o) :
    o.name = n ∧ o.placement = pl ∧ (o ∈ builtin.map (·.2) ∨ UserFn o) := by
  rw [h.lookup_env] at ho
  cases hf : Ctx.findOp c.ops n pl with
  | none => rw [hf] at ho; cases ho
  | some p =>
    rw [hf] at ho
    simp only [Option.map_some, Option.some.injEq] at ho
    subst ho
    obtain ⟨m1, m2, m3⟩ := Ctx.findOp_mem hf
    refine ⟨m2, m3, ?_⟩
    obtain ⟨us, h1, h2⟩ := h.ops
    rw [h1] at m1
    rcases List.mem_append.mp m1 with m1 | m1
    · exact .inl (List.mem_map_of_mem m1)
    · exact .inr (h2 p m1)

theorem isWord_iff {s : Str} : isWord s = true ↔ s ≠ [] ∧ ∀ ch ∈ s, isLetter ch = true := by
  simp [isWord]

theorem letter_facts {a : Char} (h : isLetter a = true) :
    isDigit a = false ∧ a ≠ ' ' ∧ a ≠ '(' ∧ a ≠ ')' ∧ a ≠ ',' ∧ a ≠ '{' ∧ a ≠ '}' ∧ a ≠ '%' := by
  have hn := isLetter_nat h
  have key : ∀ b : Char, a = b → a.toNat = b.toNat := fun b hb => by rw [hb]
  refine ⟨?_, ?_, ?_, ?_, ?_, ?_, ?_, ?_⟩
  · simp only [isDigit, Bool.or_eq_false_iff, Bool.and_eq_false_iff, decide_eq_false_iff_not,
      beq_eq_false_iff_ne]
    refine ⟨?_, ?_⟩
    · right
      intro hle
      have : a.toNat ≤ 57 := hle
      omega
    · intro hb
      have := key _ hb
      simp at this
      omega
  all_goals
    intro hb
    have := key _ hb
    simp at this
    omega

theorem digit_facts {a : Char} (h : isDigit a = true) :
    isLetter a = false ∧ a ≠ ' ' ∧ a ≠ '(' ∧ a ≠ ')' ∧ a ≠ ',' ∧ a ≠ '{' ∧ a ≠ '}' := by
  have hn : (48 ≤ a.toNat ∧ a.toNat ≤ 57) ∨ a.toNat = 46 := by
    simp only [isDigit, Bool.or_eq_true, Bool.and_eq_true, decide_eq_true_eq, beq_iff_eq] at h
    rcases h with h | rfl
    · exact .inl ⟨h.1, h.2⟩
    · exact .inr rfl
  have key : ∀ b : Char, a = b → a.toNat = b.toNat := fun b hb => by rw [hb]
  refine ⟨?_, ?_, ?_, ?_, ?_, ?_, ?_⟩
  · cases hl : isLetter a with
    | false => rfl
    | true =>
      have := (letter_facts hl).1
      rw [h] at this
      cases this
  all_goals
    intro hb
    have := key _ hb
    simp at this
    omega

theorem plain_of_head {a : Char} {s : Str}
    (h : a ≠ ' ' ∧ a ≠ '(' ∧ a ≠ ')' ∧ a ≠ ',' ∧ a ≠ '{' ∧ a ≠ '}') : Plain (a :: s) := by
  obtain ⟨h1, h2, h3, h4, h5, h6⟩ := h
  refine ⟨?_, ?_, ?_, ?_⟩
  · simpa [headIs, isSpace] using h1
  · simp [isOpeningParen, h2, h5]
  · simp [isClosingParen, h3, h6]
  · simp [isDelimiter, h4]

theorem word_plain {s : Str} (h : isWord s = true) : Plain s := by
  obtain ⟨h1, h2⟩ := isWord_iff.1 h
  cases s with
  | nil => exact absurd rfl h1
  | cons a s =>
    obtain ⟨-, f1, f2, f3, f4, f5, f6, -⟩ := letter_facts (h2 a (by simp))
    exact plain_of_head ⟨f1, f2, f3, f4, f5, f6⟩

theorem digits_plain {s : Str} (h1 : s ≠ []) (h2 : ∀ ch ∈ s, isDigit ch = true) : Plain s := by
  cases s with
  | nil => exact absurd rfl h1
  | cons a s =>
    obtain ⟨-, f1, f2, f3, f4, f5, f6⟩ := digit_facts (h2 a (by simp))
    exact plain_of_head ⟨f1, f2, f3, f4, f5, f6⟩

instance (s : Str) : Decidable (Plain s) := by unfold Plain; infer_instance

/-- Facts about the table of built-in operators. -/
theorem builtin_facts : ∀ o ∈ builtin.map (·.2), Plain o.name ∧ '%' ∉ o.name.filter (fun _ => o.placement == .prefix) ∧
    (o.placement = .function → isWord o.name = true) ∧
    (o.placement = .prefix ∨ o.placement = .postfix → isWord o.name = false) ∧
    (isWord o.name = false → o.name.length = 1 ∧ headIs isDigit o.name = false ∧ headIs isLetter o.name = false) ∧
    o.name ∈ arithOps.map (·.name) := by
  decide +kernel

/-- No word and no digits name a prefix or postfix operator. -/
theorem ArithLike.sym_lookup (h : ArithLike c) {s : Str} {pl : Placement}
    (hpl : pl = .prefix ∨ pl = .postfix)
    (hs : isWord s = true ∨ headIs isDigit s = true) : c.env.lookup s pl = none := by
  cases hl : c.env.lookup s pl with
  | none => rfl
  | some o =>
    obtain ⟨h1, h2, h3⟩ := h.env_op hl
    rcases h3 with h3 | h3
    · obtain ⟨f1, -, f2, f3, f4, -⟩ := builtin_facts o h3
      have hw := f3 (by rw [h2]; exact hpl)
      have := f4 hw
      rw [h1] at this hw
      rcases hs with hs | hs
      · rw [hw] at hs; cases hs
      · rw [this.2.1] at hs; cases hs
    · rw [h3.placement] at h2
      rcases hpl with rfl | rfl <;> cases h2

theorem ArithLike.digit_lookup (h : ArithLike c) {s : Str} {pl : Placement}
    (hs : headIs isDigit s = true) : c.env.lookup s pl = none := by
  cases hl : c.env.lookup s pl with
  | none => rfl
  | some o =>
    obtain ⟨h1, h2, h3⟩ := h.env_op hl
    have hw : isWord s = true → False := by
      intro hw
      obtain ⟨h4, h5⟩ := isWord_iff.1 hw
      cases s with
      | nil => cases hs
      | cons a s =>
        have := (letter_facts (h5 a (by simp))).1
        rw [show isDigit a = true from hs] at this
        cases this
    rcases h3 with h3 | h3
    · obtain ⟨f1, -, f2, f3, f4, -⟩ := builtin_facts o h3
      rw [h1] at f4
      cases hw' : isWord s with
      | true => exact (hw hw').elim
      | false =>
        have := (f4 hw').2.1
        rw [hs] at this; cases this
    · have := h3.name
      rw [h1] at this
      exact (hw this).elim

theorem ArithTree.printable (h : ArithLike c) {t : Tree V} (ht : ArithTree c.env strtod fmt t) :
    Printable c.env strtod fmt t := by
  induction ht with
  | @const v i h1 h2 h3 =>
    have hd : headIs isDigit (fmt v) = true := by
      cases hf : fmt v with
      | nil => exact absurd hf h1
      | cons a s => exact h2 a (by rw [hf]; simp)
    exact .const (digits_plain h1 h2) (h.digit_lookup hd) (h.digit_lookup hd) h3
  | @var n x i h1 h2 h3 h4 h5 =>
    have hw := isWord_iff.2 ⟨h1, h2⟩
    have hl : headIs isLetter n = true := by
      cases n with
      | nil => exact absurd rfl h1
      | cons a s => exact h2 a (by simp)
    exact .var (word_plain hw) h3 (h.sym_lookup (.inl rfl) (.inl hw)) h5 h4
      (h.sym_lookup (.inr rfl) (.inl hw)) hl
  | @op o cs i h1 h2 h3 ih =>
    obtain ⟨-, -, h4⟩ := h.env_op h1
    refine .op ?_ h1 h2 ?_ ?_ ih
    · rcases h4 with h4 | h4
      · exact (builtin_facts o h4).1
      · exact word_plain h4.name
    · intro hp
      rcases h4 with h4 | h4
      · obtain ⟨-, f0, f2, f3, f4, -⟩ := builtin_facts o h4
        have hw := f3 (.inl hp)
        refine ⟨?_, ?_⟩
        · cases hl : c.env.lookup o.name .function with
          | none => rfl
          | some o' =>
            obtain ⟨g1, g2, g3⟩ := h.env_op hl
            have : isWord o'.name = true := by
              rcases g3 with g3 | g3
              · exact (builtin_facts o' g3).2.2.1 g2
              · exact g3.name
            rw [g1, hw] at this
            cases this
        · intro hm
          apply f0
          simp [hp, hm]
      · rw [h4.placement] at hp; cases hp
    · intro hp
      rcases h4 with h4 | h4
      · cases hl : c.env.lookup o.name .infix with
        | none => rfl
        | some o' =>
          obtain ⟨g1, g2, g3⟩ := h.env_op hl
          rcases g3 with g3 | g3
          · have key : ∀ a ∈ builtin.map (·.2), ∀ b ∈ builtin.map (·.2), a.placement = .postfix →
                b.placement = .infix → b.name ≠ a.name := by decide +kernel
            exact absurd g1 (key o h4 o' g3 hp g2)
          · rw [g3.placement] at g2; cases g2
      · rw [h4.placement] at hp; cases hp

theorem ArithLike.precOk (h : ArithLike c) : PrecOk c.env := by
  have inf : ∀ {s o}, c.env.lookup s .infix = some o → o ∈ builtin.map (·.2) ∧ o.placement = .infix := by
    intro s o ho
    obtain ⟨-, g2, g3⟩ := h.env_op ho
    rcases g3 with g3 | g3
    · exact ⟨g3, g2⟩
    · rw [g3.placement] at g2; cases g2
  have post : ∀ {s o}, c.env.lookup s .postfix = some o → o ∈ builtin.map (·.2) ∧ o.placement = .postfix := by
    intro s o ho
    obtain ⟨-, g2, g3⟩ := h.env_op ho
    rcases g3 with g3 | g3
    · exact ⟨g3, g2⟩
    · rw [g3.placement] at g2; cases g2
  refine ⟨?_, ?_, ?_⟩
  · intro s o s' o' ho ho'
    have key : ∀ a ∈ builtin.map (·.2), ∀ b ∈ builtin.map (·.2), a.placement = .infix →
        b.placement = .infix → a.prec = b.prec → a.assoc = b.assoc := by decide +kernel
    exact key o (inf ho).1 o' (inf ho').1 (inf ho).2 (inf ho').2
  · intro s o ho
    have key : ∀ a ∈ builtin.map (·.2), a.placement = .postfix → a.assoc = .left := by decide +kernel
    exact key o (post ho).1 (post ho).2
  · intro s o s' o' ho ho'
    have key : ∀ a ∈ builtin.map (·.2), ∀ b ∈ builtin.map (·.2), a.placement = .postfix →
        b.placement = .infix → b.assoc = .right → a.prec ≠ b.prec := by decide +kernel
    exact key o (post ho).1 o' (inf ho').1 (post ho).2 (inf ho').2

/-! ## Pieces -/

def Digits (s : Str) : Prop := s ≠ [] ∧ ∀ ch ∈ s, isDigit ch = true

/-- A piece that ends words and numbers. -/
def Sep (s : Str) : Prop :=
  (s ∈ arithOps.map (·.name) ∧ isWord s = false) ∨ s ∈ [openP, closeP, commaP, blankP]

def Piece (s : Str) : Prop := isWord s = true ∨ Digits s ∨ Sep s

/-- Words and numbers do not touch. -/
def Apart (a b : Str) : Prop := Sep a ∨ Sep b

structure Neat (ts : List Str) : Prop where
  pieces : ∀ p ∈ ts, Piece p
  chain : List.IsChain Apart ts

theorem Neat.nil : Neat [] := ⟨by simp, by simp⟩

theorem Neat.one {s : Str} (h : Piece s) : Neat [s] := ⟨by simpa using h, by simp⟩

theorem Neat.sep {a b : List Str} {s : Str} (ha : Neat a) (hb : Neat b) (hs : Sep s) :
    Neat (a ++ s :: b) := by
  refine ⟨?_, ?_⟩
  · intro p hp
    simp only [List.mem_append, List.mem_cons] at hp
    rcases hp with hp | rfl | hp
    · exact ha.pieces p hp
    · exact .inr (.inr hs)
    · exact hb.pieces p hp
  · rw [List.isChain_append]
    refine ⟨ha.chain, ?_, ?_⟩
    · rw [List.isChain_cons]
      exact ⟨fun y _ => .inl hs, hb.chain⟩
    · intro x _ y hy
      simp only [List.head?_cons, Option.mem_def, Option.some.injEq] at hy
      subst hy
      exact .inr hs

theorem sep_open : Sep openP := .inr (by decide)
theorem sep_close : Sep closeP := .inr (by decide)
theorem sep_comma : Sep commaP := .inr (by decide)
theorem sep_blank : Sep blankP := .inr (by decide)

theorem Neat.wrapIf {ts : List Str} (h : Neat ts) (b : Bool) : Neat (wrapIf b ts) := by
  cases b with
  | false => exact h
  | true => exact Neat.sep (a := openP :: ts) (Neat.sep (a := []) .nil h sep_open) .nil sep_close

theorem operand_neat {t : Tree V} (ih : ∀ l r ts, printTree fmt id t l r = .ok ts → Neat ts)
    {w l r : Bool} {ts : List Str}
    (h : (if w then Res.bind (printTree fmt id t false false) fun x => Res.ok (wrapIf true x)
      else printTree fmt id t l r) = .ok ts) : Neat ts := by
  cases w with
  | false => exact ih l r ts (by simpa using h)
  | true =>
    simp only [if_true] at h
    cases hp : printTree fmt id t false false with
    | ok x =>
      simp only [hp, Res.ok_bind, Res.ok.injEq] at h
      subst h
      exact (ih _ _ x hp).wrapIf true
    | defect => simp [hp, Res.bind] at h
    | ub => simp [hp, Res.bind] at h

theorem Res.bind_ok_iff {α β : Type} {x : Res α} {f : α → Res β} {b : β} :
    x.bind f = .ok b ↔ ∃ a, x = .ok a ∧ f a = .ok b := by
  cases x <;> simp [Res.bind]

theorem op_sep (h : ArithLike c) {o : Op} (ho : c.env.lookup o.name o.placement = some o)
    (hw : isWord o.name = false) : Sep o.name := by
  obtain ⟨-, -, h3⟩ := h.env_op ho
  rcases h3 with h3 | h3
  · exact .inl ⟨(builtin_facts o h3).2.2.2.2.2, hw⟩
  · have := h3.name
    rw [hw] at this
    cases this

theorem args_neat {cs : List (Tree V)}
    (ih : ∀ t ∈ cs, ∀ l r ts, printTree fmt id t l r = .ok ts → Neat ts) {ts : List Str}
    (h : printArgs fmt id cs = .ok ts) : Neat ts := by
  induction cs generalizing ts with
  | nil =>
    simp only [printArgs, Res.ok.injEq] at h
    subst h
    exact .nil
  | cons t cs ihl =>
    rw [printArgs] at h
    obtain ⟨x, hx, h⟩ := Res.bind_ok_iff.1 h
    have h1 := ih t (by simp) _ _ _ hx
    cases cs with
    | nil =>
      simp only [Res.ok.injEq] at h
      subst h
      exact h1
    | cons t' cs =>
      simp only at h
      obtain ⟨y, hy, h⟩ := Res.bind_ok_iff.1 h
      simp only [Res.ok.injEq] at h
      subst h
      exact Neat.sep h1 (ihl (fun t ht => ih t (by simp [ht])) hy) sep_comma

theorem print_neat (h : ArithLike c) {t : Tree V} (ht : ArithTree c.env strtod fmt t) (l r : Bool)
    {ts : List Str} (hp : printTree fmt id t l r = .ok ts) : Neat ts := by
  induction ht generalizing l r ts with
  | @const v i h1 h2 h3 =>
    simp only [printTree, Res.ok.injEq] at hp
    subst hp
    exact .one (.inr (.inl ⟨h1, h2⟩))
  | @var n x i h1 h2 h3 h4 h5 =>
    simp only [printTree, Res.ok.injEq] at hp
    subst hp
    exact .one (.inl (isWord_iff.2 ⟨h1, h2⟩))
  | @op o cs i h1 h2 h3 ih =>
    rw [printTree.eq_def] at hp
    obtain ⟨-, -, h4⟩ := h.env_op h1
    cases hpl : o.placement with
    | «prefix» =>
      have hsep : Sep o.name := by
        refine op_sep h h1 ?_
        rcases h4 with h4 | h4
        · exact (builtin_facts o h4).2.2.2.1 (.inl hpl)
        · rw [h4.placement] at hpl; cases hpl
      simp only [hpl] at hp
      cases cs with
      | nil => cases hp
      | cons t cs =>
        simp only at hp
        split at hp
        · cases hp
        · obtain ⟨x, hx, hp⟩ := Res.bind_ok_iff.1 hp
          simp only [Res.ok.injEq] at hp
          subst hp
          have := operand_neat (ih t (by simp)) hx
          exact (Neat.sep (a := []) .nil this hsep).wrapIf l
    | «postfix» =>
      have hsep : Sep o.name := by
        refine op_sep h h1 ?_
        rcases h4 with h4 | h4
        · exact (builtin_facts o h4).2.2.2.1 (.inr hpl)
        · rw [h4.placement] at hpl; cases hpl
      simp only [hpl] at hp
      cases cs with
      | nil => cases hp
      | cons t cs =>
        simp only at hp
        obtain ⟨x, hx, hp⟩ := Res.bind_ok_iff.1 hp
        simp only [Res.ok.injEq] at hp
        subst hp
        have := operand_neat (ih t (by simp)) hx
        exact (Neat.sep this .nil hsep).wrapIf r
    | function =>
      have hw : isWord o.name = true := by
        rcases h4 with h4 | h4
        · exact (builtin_facts o h4).2.2.1 hpl
        · exact h4.name
      simp only [hpl] at hp
      split at hp
      · obtain ⟨x, hx, hp⟩ := Res.bind_ok_iff.1 hp
        simp only [Res.ok.injEq] at hp
        subst hp
        have := args_neat ih hx
        exact Neat.sep (a := o.name :: openP :: x) (Neat.sep (a := [o.name]) (.one (.inl hw)) this sep_open)
          .nil sep_close
      · simp only [Res.ok.injEq] at hp
        subst hp
        exact .one (.inl hw)
    | «infix» =>
      simp only [hpl] at hp
      match cs, hp, ih with
      | a :: b :: cs, hp, ih =>
        simp only at hp
        obtain ⟨x, hx, hp⟩ := Res.bind_ok_iff.1 hp
        obtain ⟨y, hy, hp⟩ := Res.bind_ok_iff.1 hp
        simp only [Res.ok.injEq] at hp
        subst hp
        have na := operand_neat (ih a (by simp)) hx
        have nb := operand_neat (ih b (by simp)) hy
        cases hw : isWord o.name with
        | true =>
          have hl : headIs isLetter o.name = true := by
            obtain ⟨g1, g2⟩ := isWord_iff.1 hw
            cases hn : o.name with
            | nil => exact absurd hn g1
            | cons ch s => exact g2 ch (by rw [hn]; simp)
          simp only [infixPieces, hl, if_true, List.append_assoc, List.cons_append, List.nil_append]
          exact Neat.sep na (Neat.sep (a := [o.name]) (.one (.inl hw)) nb sep_blank) sep_blank
        | false =>
          have hsep := op_sep h h1 hw
          have hl : headIs isLetter o.name = false := by
            rcases h4 with h4 | h4
            · exact ((builtin_facts o h4).2.2.2.2.1 hw).2.2
            · rw [h4.placement] at hpl; cases hpl
          simp only [infixPieces, hl, Bool.false_eq_true, if_false, List.append_assoc, List.cons_append,
            List.nil_append]
          exact Neat.sep na nb hsep

/-! ## Canonical decomposition -/

theorem arith_names : ∀ s ∈ arithOps.map (·.name), isWord s = false →
    s.length = 1 ∧ headIs isDigit s = false ∧ headIs isLetter s = false ∧
      s ∉ [openP, closeP, commaP, blankP] := by
  decide +kernel

theorem sep_facts {s : Str} (h : Sep s) :
    s.length = 1 ∧ headIs isDigit s = false ∧ headIs isLetter s = false := by
  rcases h with ⟨h, hw⟩ | h
  · have := arith_names s h hw
    exact ⟨this.1, this.2.1, this.2.2.1⟩
  · have : ∀ s ∈ [openP, closeP, commaP, blankP],
        s.length = 1 ∧ headIs isDigit s = false ∧ headIs isLetter s = false := by decide
    exact this s h

theorem word_head {s : Str} (h : isWord s = true) : headIs isLetter s = true ∧ headIs isDigit s = false := by
  obtain ⟨h1, h2⟩ := isWord_iff.1 h
  cases s with
  | nil => exact absurd rfl h1
  | cons a s => exact ⟨h2 a (by simp), (letter_facts (h2 a (by simp))).1⟩

theorem digits_head {s : Str} (h : Digits s) : headIs isDigit s = true ∧ headIs isLetter s = false := by
  cases s with
  | nil => exact absurd rfl h.1
  | cons a s => exact ⟨h.2 a (by simp), (digit_facts (h.2 a (by simp))).1⟩

theorem headIs_append {p : Char → Bool} {a b : Str} (h : a ≠ []) : headIs p (a ++ b) = headIs p a := by
  cases a with
  | nil => exact absurd rfl h
  | cons => rfl

theorem piece_ne {s : Str} (h : Piece s) : s ≠ [] := by
  rcases h with h | h | h
  · exact (isWord_iff.1 h).1
  · exact h.1
  · have := (sep_facts h).1
    rintro rfl
    cases this

theorem neat_head {ts : List Str} {a : Str} {p : Char → Bool} (h : Neat (a :: ts))
    (hp : ∀ b, Apart a b → Piece b → headIs p b = false) : headIs p ts.flatten = false := by
  cases ts with
  | nil => rfl
  | cons b ts =>
    have hb := h.pieces b (by simp)
    rw [List.flatten_cons, headIs_append (piece_ne hb)]
    have := h.chain
    rw [List.isChain_cons_cons] at this
    exact hp b this.1 hb

/-- Neat lists of pieces are canonical decompositions in the calculator. -/
theorem neat_canon (h : ArithLike c) {ts : List Str} (hn : Neat ts) :
    Canon (kwSet c.keywords) ts.flatten ts := by
  have kw : ∀ k, kwSet c.keywords k → isWord k = true ∨ (k ∈ arithOps.map (·.name) ∧ isWord k = false) := by
    intro k hk
    cases hw : isWord k with
    | true => exact .inl rfl
    | false =>
      rcases h.kwSub k hk with h' | h'
      · rw [hw] at h'; cases h'
      · exact .inr ⟨h', rfl⟩
  have kne : ∀ k, kwSet c.keywords k → k ≠ [] := by
    intro k hk
    rcases kw k hk with hk | ⟨hk, hw⟩
    · exact (isWord_iff.1 hk).1
    · have := (arith_names k hk hw).1
      rintro rfl
      cases this
  induction ts with
  | nil => exact .nil
  | cons a ts ih =>
    have hn' : Neat ts := ⟨fun p hp => hn.pieces p (by simp [hp]), hn.chain.tail⟩
    have ih := ih hn'
    rw [List.flatten_cons]
    rcases hn.pieces a (by simp) with hw | hd | hs
    · obtain ⟨h1, h2⟩ := isWord_iff.1 hw
      refine .letters h1 h2 (neat_head hn ?_) ih
      intro b hab hb
      rcases hab with hab | hab
      · have := (sep_facts hab).2.2
        rw [(word_head hw).1] at this
        cases this
      · exact (sep_facts hab).2.2
    · refine .digits hd.1 hd.2 (neat_head hn ?_) ?_ ih
      · intro b hab hb
        rcases hab with hab | hab
        · have := (sep_facts hab).2.1
          rw [(digits_head hd).1] at this
          cases this
        · exact (sep_facts hab).2.1
      · intro k hk hpre
        exfalso
        have hkn := kne k hk
        obtain ⟨u, hu⟩ := hpre
        have e : headIs isDigit k = true := by
          rw [← headIs_append hkn (b := u), hu, headIs_append hd.1]
          exact (digits_head hd).1
        rcases kw k hk with hk' | ⟨hk', hw'⟩
        · rw [(word_head hk').2] at e; cases e
        · rw [(arith_names k hk' hw').2.1] at e; cases e
    · rcases hs with ⟨hm, hw⟩ | ho
      · have hf := arith_names a hm hw
        obtain ⟨o, ho, rfl⟩ := List.mem_map.mp hm
        refine .keyword hf.2.2.1 ⟨?_, h.kwSym o ho hw, ⟨_, rfl⟩, ?_⟩ ih
        · intro e
          rw [e] at hf
          cases hf.1
        · intro k hk hpre
          obtain ⟨u, hu⟩ := hpre
          rcases kw k hk with hk' | ⟨hk', hw'⟩
          · have e : headIs isLetter k = true := (word_head hk').1
            rw [← headIs_append (kne k hk) (b := u), hu, headIs_append (by intro e; rw [e] at hf; cases hf.1),
              hf.2.2.1] at e
            cases e
          · rw [(arith_names k hk' hw').1, hf.1]
      · have hf := sep_facts (.inr ho)
        obtain ⟨ch, rfl⟩ := List.length_eq_one_iff.mp hf.1
        refine .other hf.2.2 hf.2.1 ?_ ih
        intro k hk hpre
        exfalso
        cases k with
        | nil => exact kne _ hk rfl
        | cons x k =>
          obtain ⟨u, hu⟩ := hpre
          simp only [List.cons_append, List.cons.injEq] at hu
          obtain ⟨rfl, -⟩ := hu
          rcases kw _ hk with hk' | ⟨hk', hw'⟩
          · have := (word_head hk').1
            rw [show headIs isLetter (x :: k) = headIs isLetter [x] from rfl, hf.2.2] at this
            cases this
          · have := arith_names _ hk' hw'
            have hl := this.1
            simp only [List.length_cons, Nat.add_eq_right, List.length_eq_zero_iff] at hl
            subst hl
            exact this.2.2.2 ho

end Verif
