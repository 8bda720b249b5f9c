import Verif.Model.Printer
import Verif.Spec.Printable
import Verif.Lemmas.Grammar

/-!
# Printed pieces form an expression of the grammar
-/

namespace Verif
variable {V : Type} {E : Env} {strtod : Str → Option V} {fmt : V → Str}

theorem Res.ok_bind {α β : Type} (a : α) (f : α → Res β) : (Res.ok a).bind f = f a := rfl

@[simp] theorem Tree.shape_const (v : V) (i : Nat) : (Tree.const v i).shape = .const v 0 := by
  rw [Tree.shape]
@[simp] theorem Tree.shape_var (n : Str) (x i : Nat) : (Tree.var n x i : Tree V).shape = .var n 0 0 := by
  rw [Tree.shape]
@[simp] theorem Tree.shape_op (o : Op) (cs : List (Tree V)) (i : Nat) :
    (Tree.op o cs i).shape = .op o (cs.map Tree.shape) 0 := by
  rw [Tree.shape]

/-- `x` binds at least as strong as the root; leaves expose no operators. -/
def RootLe : Tree V → Op → Prop
  | .op o _ _, x => o.prec ≤ x.prec
  | _, _ => False

/-- Pieces without blanks. -/
def sig (ts : List Str) : List Str := ts.filter fun x => !headIs isSpace x

theorem sig_append (a b : List Str) : sig (a ++ b) = sig a ++ sig b := by
  simp [sig]

theorem sig_cons_plain {x : Str} (h : headIs isSpace x = false) (b : List Str) :
    sig (x :: b) = x :: sig b := by
  simp [sig, h]

/-- `ts` spells `t` wherever it stands. -/
def Spells (E : Env) (strtod : Str → Option V) (t : Tree V) (ts : List Str) : Prop :=
  ∀ its : List (Nat × Str), its.map (·.2) = sig ts → ∃ t' le rs, Expr E strtod its t' le rs ∧
    t'.shape = t.shape ∧ (∀ y ∈ le, RootLe t y ∧
      ((∃ s, E.lookup s .infix = some y) ∨ ∃ s, E.lookup s .postfix = some y)) ∧
    ∀ x ∈ rs, RootLe t x

theorem map_snd_cons {its : List (Nat × Str)} {x : Str} {l : List Str}
    (h : its.map (·.2) = x :: l) : ∃ i its', its = (i, x) :: its' ∧ its'.map (·.2) = l := by
  cases its with
  | nil => cases h
  | cons y its' =>
    simp only [List.map_cons, List.cons.injEq] at h
    obtain ⟨h1, h2⟩ := h
    exact ⟨y.1, its', by rw [← h1], h2⟩

theorem map_snd_append {its : List (Nat × Str)} {a b : List Str}
    (h : its.map (·.2) = a ++ b) :
    ∃ ia ib, its = ia ++ ib ∧ ia.map (·.2) = a ∧ ib.map (·.2) = b := by
  rw [List.map_eq_append_iff] at h
  exact h

/-- Wrapped in parentheses both edges are closed. -/
def SpellsClosed (E : Env) (strtod : Str → Option V) (t : Tree V) (ts : List Str) : Prop :=
  ∀ its : List (Nat × Str), its.map (·.2) = sig ts → ∃ t', Expr E strtod its t' [] [] ∧
    t'.shape = t.shape

theorem Spells.wrap {t : Tree V} {ts : List Str} (h : Spells E strtod t ts) :
    SpellsClosed E strtod t (wrapIf true ts) := by
  intro its hits
  have e : sig (wrapIf true ts) = openP :: (sig ts ++ [closeP]) := by
    simp only [wrapIf, if_true]
    rw [List.cons_append, sig_cons_plain rfl, sig_append]
    rfl
  rw [e] at hits
  obtain ⟨i, its1, rfl, h1⟩ := map_snd_cons hits
  obtain ⟨ia, ib, rfl, h2, h3⟩ := map_snd_append h1
  obtain ⟨k, its2, rfl, h4⟩ := map_snd_cons h3
  simp only [List.map_eq_nil_iff] at h4
  subst h4
  obtain ⟨t', le, rs, he, hs, -, -⟩ := h ia h2
  exact ⟨t', Expr.paren rfl he rfl, hs⟩

theorem SpellsClosed.spells {t : Tree V} {ts : List Str} (h : SpellsClosed E strtod t ts) :
    Spells E strtod t ts := by
  intro its hits
  obtain ⟨t', he, hs⟩ := h its hits
  exact ⟨t', [], [], he, hs, by simp, by simp⟩

theorem Spells.wrapIf {t : Tree V} {ts : List Str} (b : Bool) (h : Spells E strtod t ts) :
    Spells E strtod t (wrapIf b ts) := by
  cases b with
  | false => exact h
  | true => exact h.wrap.spells

/-- An operand of `o`, printed wrapped or not: what it exposes. -/
def Operand (E : Env) (strtod : Str → Option V) (t : Tree V) (ts : List Str) (p : Op → Prop) : Prop :=
  ∀ its : List (Nat × Str), its.map (·.2) = sig ts → ∃ t' le rs, Expr E strtod its t' le rs ∧
    t'.shape = t.shape ∧ (∀ y ∈ le, p y ∧
      ((∃ s, E.lookup s .infix = some y) ∨ ∃ s, E.lookup s .postfix = some y)) ∧
    ∀ x ∈ rs, p x

/-- Printing of an operand that is wrapped if `w`. -/
theorem operand_print {c : Tree V}
    (ih : ∀ l r, ∃ ts, printTree fmt id c l r = .ok ts ∧ Spells E strtod c ts) (w : Bool) (l r : Bool)
    (q : Op → Prop)
    (hq : w = false → (∀ o cs i, c = .op o cs i → ∀ x : Op, o.prec ≤ x.prec → q x)) :
    ∃ ts, (if w then Res.bind (printTree fmt id c false false) fun x => Res.ok (wrapIf true x)
      else printTree fmt id c l r) = .ok ts ∧ Operand E strtod c ts q := by
  cases w with
  | true =>
    obtain ⟨ts, h1, h2⟩ := ih false false
    refine ⟨Verif.wrapIf true ts, by simp [h1, Res.ok_bind], ?_⟩
    intro its hits
    obtain ⟨t', he, hs⟩ := h2.wrap its hits
    exact ⟨t', [], [], he, hs, by simp, by simp⟩
  | false =>
    obtain ⟨ts, h1, h2⟩ := ih l r
    refine ⟨ts, by simp [h1], ?_⟩
    intro its hits
    obtain ⟨t', le, rs, he, hs, h3, h4⟩ := h2 its hits
    have hq' : ∀ x, RootLe c x → q x := by
      intro x hx
      cases c with
      | op o cs i => exact hq rfl o cs i rfl x hx
      | const v i => exact hx.elim
      | var n x i => exact hx.elim
    exact ⟨t', le, rs, he, hs, fun y hy => ⟨hq' y (h3 y hy).1, (h3 y hy).2⟩,
      fun x hx => hq' x (h4 x hx)⟩

theorem prefix_print (hE : OpShape E) {o : Op} {c : Tree V} {i : Nat} (hpl : Plain o.name)
    (hl : E.lookup o.name .prefix = some o) (hf : E.lookup o.name .function = none)
    {ts : List Str} (h : Operand E strtod c ts fun x => o.prec < x.prec) :
    Spells E strtod (.op o [c] i) (o.name :: ts) := by
  intro its hits
  rw [sig_cons_plain hpl.1] at hits
  obtain ⟨k, its1, rfl, h1⟩ := map_snd_cons hits
  obtain ⟨t', le, rs, he, hs, h3, h4⟩ := h its1 h1
  refine ⟨.op o [t'] k, [], o :: rs, .prefix hpl hf hl he ?_, by simp [hs], by simp, ?_⟩
  · intro y hy hc
    have := (h3 y hy).1
    unfold Closes at hc
    omega
  · intro x hx
    rcases List.mem_cons.mp hx with rfl | hx
    · exact Nat.le_refl _
    · exact Nat.le_of_lt (h4 x hx)

theorem postfix_print (hP : PrecOk E) {o : Op} {c : Tree V} {i : Nat} (hpl : Plain o.name)
    (hl : E.lookup o.name .postfix = some o) (hf : E.lookup o.name .infix = none)
    {ts : List Str} (h : Operand E strtod c ts fun x => o.prec ≤ x.prec) :
    Spells E strtod (.op o [c] i) (ts ++ [o.name]) := by
  intro its hits
  rw [sig_append, sig_cons_plain hpl.1] at hits
  obtain ⟨ia, ib, rfl, h1, h2⟩ := map_snd_append hits
  obtain ⟨k, its1, rfl, h5⟩ := map_snd_cons h2
  simp only [sig, List.filter_nil, List.map_eq_nil_iff] at h5
  subst h5
  obtain ⟨t', le, rs, he, hs, h3, h4⟩ := h ia h1
  refine ⟨.op o [t'] k, le ++ [o], [], .postfix hpl hf hl he ?_, by simp [hs], ?_, by simp⟩
  · intro x hx
    have := h4 x hx
    have hleft := hP.post _ _ hl
    unfold Closes
    rcases Nat.lt_or_eq_of_le this with h | h
    · exact .inl h
    · exact .inr ⟨h, hleft⟩
  · intro y hy
    rcases List.mem_append.mp hy with hy | hy
    · exact h3 y hy
    · simp only [List.mem_singleton] at hy
      subst hy
      exact ⟨Nat.le_refl _, .inr ⟨_, hl⟩⟩

theorem sig_infix {o : Op} (hpl : Plain o.name) : sig (infixPieces o) = [o.name] := by
  unfold infixPieces
  split
  · have hb : headIs isSpace blankP = true := rfl
    simp [sig, hb, hpl.1]
  · simp [sig, hpl.1]

theorem infix_print (hP : PrecOk E) {o : Op} {a b : Tree V} {i : Nat} (hpl : Plain o.name)
    (hl : E.lookup o.name .infix = some o) {ta tb : List Str}
    (ha : Operand E strtod a ta fun x => o.prec < x.prec ∨ (o.prec = x.prec ∧ o.assoc = .left))
    (hb : Operand E strtod b tb fun x => o.prec < x.prec ∨ (o.prec = x.prec ∧ o.assoc = .right)) :
    Spells E strtod (.op o [a, b] i) (ta ++ infixPieces o ++ tb) := by
  intro its hits
  rw [sig_append, sig_append, sig_infix hpl] at hits
  obtain ⟨ix, ib, rfl, h0, h2⟩ := map_snd_append hits
  obtain ⟨ia, io, rfl, h1, h5⟩ := map_snd_append h0
  obtain ⟨k, its1, rfl, h6⟩ := map_snd_cons h5
  simp only [List.map_eq_nil_iff] at h6
  subst h6
  obtain ⟨a', lea, rsa, hea, hsa, ha3, ha4⟩ := ha ia h1
  obtain ⟨b', leb, rsb, heb, hsb, hb3, hb4⟩ := hb ib h2
  rw [List.append_assoc, List.singleton_append]
  refine ⟨.op o [a', b'] k, lea ++ [o], o :: rsb, .infix hpl hl hea ?_ heb ?_, by simp [hsa, hsb], ?_, ?_⟩
  · exact ha4
  · intro y hy hc
    obtain ⟨h7, h8⟩ := hb3 y hy
    unfold Closes at hc
    rcases h7 with h7 | ⟨h7, h9⟩
    · omega
    · rcases hc with hc | ⟨-, hc⟩
      · omega
      · rcases h8 with ⟨s, hs⟩ | ⟨s, hs⟩
        · have := hP.infix_ _ _ _ _ hl hs h7
          rw [h9, hc] at this
          cases this
        · exact hP.clash _ _ _ _ hs hl h9 h7.symm
  · intro y hy
    rcases List.mem_append.mp hy with hy | hy
    · refine ⟨?_, (ha3 y hy).2⟩
      rcases (ha3 y hy).1 with h | h
      · exact Nat.le_of_lt h
      · exact Nat.le_of_eq h.1
    · simp only [List.mem_singleton] at hy
      subst hy
      exact ⟨Nat.le_refl _, .inl ⟨_, hl⟩⟩
  · intro x hx
    rcases List.mem_cons.mp hx with rfl | hx
    · exact Nat.le_refl _
    · rcases hb4 x hx with h | h
      · exact Nat.le_of_lt h
      · exact Nat.le_of_eq h.1

theorem args_print {cs : List (Tree V)} (hne : cs ≠ [])
    (ih : ∀ c ∈ cs, ∀ l r, ∃ ts, printTree fmt id c l r = .ok ts ∧ Spells E strtod c ts) :
    ∃ ts, printArgs fmt id cs = .ok ts ∧ ∀ its : List (Nat × Str), its.map (·.2) = sig ts →
      ∃ as, Args E strtod its as ∧ as.map Tree.shape = cs.map Tree.shape := by
  induction cs with
  | nil => exact absurd rfl hne
  | cons c cs ihl =>
    obtain ⟨ts, h1, h2⟩ := ih c (by simp) false false
    cases cs with
    | nil =>
      refine ⟨ts, by simp [printArgs, h1, Res.ok_bind], fun its hits => ?_⟩
      obtain ⟨t', le, rs, he, hs, -, -⟩ := h2 its hits
      exact ⟨[t'], .one he, by simp [hs]⟩
    | cons c' cs =>
      obtain ⟨ts', h3, h4⟩ := ihl (by simp) (fun c hc => ih c (by simp [hc]))
      refine ⟨ts ++ commaP :: ts', by rw [printArgs]; simp [h1, h3, Res.ok_bind], fun its hits => ?_⟩
      rw [sig_append, sig_cons_plain rfl] at hits
      obtain ⟨ia, ib, rfl, h5, h6⟩ := map_snd_append hits
      obtain ⟨k, its1, rfl, h7⟩ := map_snd_cons h6
      obtain ⟨t', le, rs, he, hs, -, -⟩ := h2 ia h5
      obtain ⟨as, h8, h9⟩ := h4 its1 h7
      exact ⟨t' :: as, .more he rfl h8, by simp [hs, h9]⟩

/-- Every printable tree is printed, and spelled by what is printed. -/
theorem print_spells (hE : OpShape E) (hP : PrecOk E) {t : Tree V}
    (h : Printable E strtod fmt t) (l r : Bool) :
    ∃ ts, printTree fmt id t l r = .ok ts ∧ Spells E strtod t ts := by
  induction h generalizing l r with
  | @const v i h1 h2 h3 h4 =>
    refine ⟨[fmt v], by simp [printTree], fun its hits => ?_⟩
    rw [sig_cons_plain h1.1] at hits
    obtain ⟨k, its1, rfl, h7⟩ := map_snd_cons hits
    simp only [sig, List.filter_nil, List.map_eq_nil_iff] at h7
    subst h7
    exact ⟨_, [], [], .number h1 h2 h3 h4, by simp, by simp, by simp⟩
  | @var n x i h1 h2 h3 h4 h5 h6 h7 =>
    refine ⟨[n], by simp [printTree], fun its hits => ?_⟩
    rw [sig_cons_plain h1.1] at hits
    obtain ⟨k, its1, rfl, h9⟩ := map_snd_cons hits
    simp only [sig, List.filter_nil, List.map_eq_nil_iff] at h9
    subst h9
    exact ⟨_, [], [], .variable h1 h2 h3 h4 h5 h6 h7, by simp, by simp, by simp⟩
  | @op o cs i h1 h2 h3 h4 h5 h6 ih =>
    cases hp : o.placement with
    | «prefix» =>
      rw [hp] at h2
      obtain ⟨-, har⟩ := hE.pre _ _ h2
      obtain ⟨hf, hperc⟩ := h4 hp
      rw [har] at h3
      simp only [reduceCtorEq, Arity.fixed.injEq, false_or] at h3
      obtain ⟨c, rfl⟩ := List.length_eq_one_iff.mp h3.symm
      obtain ⟨ts, h7, h8⟩ := operand_print (ih c (by simp)) (prefixWraps o c) true (!l && r)
        (fun x => o.prec < x.prec) (by
          intro hw p cs j hc x hx
          subst hc
          simp only [prefixWraps, Tree.isOpWith, decide_eq_false_iff_not] at hw
          omega)
      refine ⟨wrapIf l (o.name :: ts), ?_, ?_⟩
      · rw [printTree]
        simp only [hp, hperc, if_false, h7, Res.ok_bind]
      · exact (prefix_print hE h1 h2 hf h8).wrapIf l
    | «postfix» =>
      rw [hp] at h2
      obtain ⟨-, har⟩ := hE.post _ _ h2
      rw [har] at h3
      simp only [reduceCtorEq, Arity.fixed.injEq, false_or] at h3
      obtain ⟨c, rfl⟩ := List.length_eq_one_iff.mp h3.symm
      obtain ⟨ts, h7, h8⟩ := operand_print (ih c (by simp)) (postfixWraps o c) (l && !r) true
        (fun x => o.prec ≤ x.prec) (by
          intro hw p cs j hc x hx
          subst hc
          simp only [postfixWraps, Tree.isOpWith, decide_eq_false_iff_not] at hw
          omega)
      refine ⟨wrapIf r (ts ++ [o.name]), ?_, ?_⟩
      · rw [printTree]
        simp only [hp, h7, Res.ok_bind]
      · exact (postfix_print hP h1 h2 (h5 hp) h8).wrapIf r
    | function =>
      rw [hp] at h2
      by_cases h0 : o.arity = .fixed 0
      · rw [h0] at h3
        simp only [reduceCtorEq, Arity.fixed.injEq, false_or] at h3
        obtain rfl := List.length_eq_zero_iff.mp h3.symm
        refine ⟨[o.name], by rw [printTree]; simp [hp, h0], fun its hits => ?_⟩
        rw [sig_cons_plain h1.1] at hits
        obtain ⟨k, its1, rfl, h9⟩ := map_snd_cons hits
        simp only [sig, List.filter_nil, List.map_eq_nil_iff] at h9
        subst h9
        exact ⟨_, [], [], .constant h1 h2 h0, by simp, by simp, by simp⟩
      · by_cases hcs : cs = []
        · subst hcs
          have hdyn : o.arity = .dyn := by
            rcases h3 with h | h
            · exact h
            · exact absurd h h0
          refine ⟨[o.name, openP, closeP], by rw [printTree]; simp [hp, h0, printArgs, Res.ok_bind], fun its hits => ?_⟩
          rw [sig_cons_plain h1.1, sig_cons_plain rfl, sig_cons_plain rfl] at hits
          obtain ⟨k, its1, rfl, h9⟩ := map_snd_cons hits
          obtain ⟨k1, its2, rfl, h9a⟩ := map_snd_cons h9
          obtain ⟨k2, its3, rfl, h9b⟩ := map_snd_cons h9a
          simp only [sig, List.filter_nil, List.map_eq_nil_iff] at h9b
          subst h9b
          refine ⟨_, [], [o], .call0 h1 h2 hdyn rfl rfl, by simp, by simp, ?_⟩
          intro x hx
          simp only [List.mem_singleton] at hx
          subst hx
          exact Nat.le_refl _
        · obtain ⟨ts, h7, h8⟩ := args_print hcs ih
          refine ⟨o.name :: openP :: ts ++ [closeP], by rw [printTree.eq_def]; simp [hp, h0, h7, Res.ok_bind],
            fun its hits => ?_⟩
          rw [List.cons_append, List.cons_append, sig_cons_plain h1.1, sig_cons_plain rfl, sig_append,
            sig_cons_plain rfl] at hits
          obtain ⟨k, its1, rfl, h9⟩ := map_snd_cons hits
          obtain ⟨k1, its2, rfl, h9a⟩ := map_snd_cons h9
          obtain ⟨ia, ib, rfl, h10, h9b⟩ := map_snd_append h9a
          obtain ⟨k2, its3, rfl, h9c⟩ := map_snd_cons h9b
          simp only [sig, List.filter_nil, List.map_eq_nil_iff] at h9c
          subst h9c
          obtain ⟨as, h11, h12⟩ := h8 ia h10
          have hlen : as.length = cs.length := by
            have := congrArg List.length h12
            simpa using this
          refine ⟨_, [], [o], .call h1 h2 (by rw [hlen]; exact h3) rfl h11 rfl, by simp [h12], by simp, ?_⟩
          intro x hx
          simp only [List.mem_singleton] at hx
          subst hx
          exact Nat.le_refl _
    | «infix» =>
      rw [hp] at h2
      obtain ⟨-, har⟩ := hE.inf _ _ h2
      rw [har] at h3
      simp only [reduceCtorEq, Arity.fixed.injEq, false_or] at h3
      obtain ⟨a, b, rfl⟩ := List.length_eq_two.mp h3.symm
      obtain ⟨ta, h7, h8⟩ := operand_print (ih a (by simp)) (leftWraps o a) l true
        (fun x => o.prec < x.prec ∨ (o.prec = x.prec ∧ o.assoc = .left)) (by
          intro hw p cs j hc x hx
          subst hc
          simp only [leftWraps, Tree.isOpWith, Bool.or_eq_false_iff, decide_eq_false_iff_not,
            Bool.and_eq_false_imp, beq_iff_eq, beq_eq_false_iff_ne] at hw
          by_cases hlt : o.prec < x.prec
          · exact .inl hlt
          · refine .inr ⟨by omega, ?_⟩
            have := hw.2 (by omega)
            cases ha : o.assoc with
            | left => rfl
            | right => exact absurd ha this)
      obtain ⟨tb, h9, h10⟩ := operand_print (ih b (by simp)) (rightWraps o b) true r
        (fun x => o.prec < x.prec ∨ (o.prec = x.prec ∧ o.assoc = .right)) (by
          intro hw p cs j hc x hx
          subst hc
          simp only [rightWraps, Tree.isOpWith, Bool.or_eq_false_iff, decide_eq_false_iff_not,
            Bool.and_eq_false_imp, beq_iff_eq, beq_eq_false_iff_ne] at hw
          by_cases hlt : o.prec < x.prec
          · exact .inl hlt
          · refine .inr ⟨by omega, ?_⟩
            have := hw.2 (by omega)
            cases ha : o.assoc with
            | right => rfl
            | left => exact absurd ha this)
      refine ⟨ta ++ infixPieces o ++ tb, ?_, infix_print hP h1 h2 h8 h10⟩
      rw [printTree]
      simp only [hp, h7, Res.ok_bind, h9]

end Verif
