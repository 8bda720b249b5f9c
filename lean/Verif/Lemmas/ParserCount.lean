import Verif.Lemmas.ParserInv
import Mathlib.Data.List.Perm.Basic
import Mathlib.Data.List.Perm.Subperm

/-!
# Operand counting in the parser
-/

namespace Verif
variable {V : Type}

/-- Operators as the constructors of operator.c build them, with infix operators
of the highest precedence associating to the left. -/
structure WFOp (o : Op) : Prop where
  pre : o.placement = .prefix → o.arity = .fixed 1
  inf : o.placement = .infix → o.arity = .fixed 2 ∧ (o.prec < 255 ∨ (o.prec = 255 ∧ o.assoc = .left))
  post : o.placement = .postfix → o.arity = .fixed 1 ∧ o.prec ≤ 255 ∧ o.assoc = .left
  fn : o.placement = .function → o.prec = 255

structure WFEnv (E : Env) : Prop where
  op : ∀ tok pl o, E.lookup tok pl = some o → o.placement = pl ∧ WFOp o
  glue : ∀ o, E.glue = some o → o.placement = .infix ∧ WFOp o

/-- Token indices of the nodes of a tree. -/
def treeToks : Tree V → List Nat
  | .const _ i => [i]
  | .var _ _ i => [i]
  | .op _ cs i => i :: cs.flatMap treeToks

/-- Token indices held by the stacks. -/
def accounted (nodes : List (Tree V)) (ops : List OpData) : List Nat :=
  nodes.flatMap treeToks ++ ops.filterMap (fun d => d.op.map fun _ => d.token)

/-- Functions on the stack have an open parameter list; other operators have an
operand. -/
def Shape : Bool → List OpData → Prop
  | _, [] => True
  | above, d :: ds =>
    match d.op with
    | none => Shape true ds
    | some o => (if o.placement = .function then above = true else 1 ≤ d.arity ∧ d.arity ≠ sizeMax)
        ∧ Shape false ds

/-- Number of operands the entries of the stack need besides the one to come. -/
def need : List OpData → Nat
  | [] => 0
  | d :: ds =>
    match d.op with
    | none => need ds
    | some o => (if o.placement = .function then d.arity else d.arity - 1) + need ds

theorem Shape.mono {ops : List OpData} {b : Bool} (h : Shape false ops) : Shape b ops := by
  cases ops with
  | nil => trivial
  | cons d ds =>
    unfold Shape at *
    split <;> rename_i o ho
    · rw [ho] at h; exact h
    · rw [ho] at h
      simp only at h
      refine ⟨?_, h.2⟩
      have := h.1
      split <;> simp_all

/-- Invariant with `e` operands available beyond those needed. -/
structure Cnt (e : Nat) (b : Bool) (nodes : List (Tree V)) (ops : List OpData) (L : List Nat) : Prop where
  shape : Shape b ops
  count : nodes.length = need ops + e
  perm : (accounted nodes ops).Perm L

theorem accounted_pop {o : Op} {d : OpData} {nodes : List (Tree V)} {ds : List OpData}
    (ho : d.op = some o) (k : Nat) :
    (accounted (.op o (nodes.take k).reverse d.token :: nodes.drop k) ds).Perm
      (accounted nodes (d :: ds)) := by
  unfold accounted
  simp only [List.flatMap_cons, treeToks, List.filterMap_cons, ho, Option.map_some]
  have h1 : ((nodes.take k).reverse.flatMap treeToks).Perm ((nodes.take k).flatMap treeToks) :=
    List.Perm.flatMap_right _ (List.reverse_perm _)
  have h2 : nodes.flatMap treeToks = (nodes.take k).flatMap treeToks ++ (nodes.drop k).flatMap treeToks := by
    rw [← List.flatMap_append, List.take_append_drop]
  rw [h2]
  simp only [List.cons_append]
  refine List.Perm.trans (List.Perm.cons _ ?_) List.perm_middle.symm
  exact List.Perm.append_right _ (List.Perm.append_right _ h1)

theorem popInsert_cnt {e : Nat} {o : Op} {d : OpData} {nodes nodes' : List (Tree V)}
    {ds : List OpData} {L : List Nat} (h : Cnt e false nodes (d :: ds) L) (ho : d.op = some o)
    (hp : popInsert o d nodes = .ok nodes') : Cnt e false nodes' ds L := by
  obtain ⟨-, h2, rfl⟩ := popInsert_ok hp
  have hs := h.shape
  have hc := h.count
  unfold Shape at hs
  unfold need at hc
  rw [ho] at hs hc
  simp only at hs hc
  have hnf : ¬ o.placement = .function := by
    intro hf
    simp [hf] at hs
  simp only [hnf, if_false] at hs hc
  refine ⟨hs.2, ?_, (accounted_pop ho _).trans h.perm⟩
  simp only [List.length_cons, List.length_drop]
  omega

theorem popInsert_no_underflow {e : Nat} {o : Op} {d : OpData} {nodes : List (Tree V)}
    {ds : List OpData} {L : List Nat} (h : Cnt e false nodes (d :: ds) L) (ho : d.op = some o) :
    popInsert o d nodes ≠ .error .ub ∧ (1 ≤ e → popInsert o d nodes ≠ .error .underflow) := by
  have hs := h.shape
  have hc := h.count
  unfold Shape at hs
  unfold need at hc
  rw [ho] at hs hc
  simp only at hs hc
  have hnf : ¬ o.placement = .function := by
    intro hf
    simp [hf] at hs
  simp only [hnf, if_false] at hs hc
  unfold popInsert
  constructor
  · split
    · simp
    · split
      · rename_i h'; exact absurd h'.1 hs.1.2
      · split <;> simp
  · intro he
    split
    · simp
    · split
      · simp
      · split
        · omega
        · simp

theorem popWhile_cnt {e : Nat} {p : Op → Bool} {nodes : List (Tree V)} {ops : List OpData}
    {L : List Nat} (h : Cnt e false nodes ops L) :
    (∀ r, popWhile p nodes ops = .ok r → Cnt e false r.1 r.2 L) ∧
    popWhile p nodes ops ≠ .error .ub ∧
    (1 ≤ e → popWhile p nodes ops ≠ .error .underflow) := by
  induction ops generalizing nodes with
  | nil =>
    simp only [popWhile, Except.ok.injEq, reduceCtorEq, ne_eq, not_false_eq_true, implies_true,
      and_true]
    rintro r rfl
    exact h
  | cons d ds ih =>
    simp only [popWhile]
    split
    · refine ⟨?_, by simp, by simp⟩
      rintro r hr
      simp only [Except.ok.injEq] at hr
      subst hr
      exact h
    · rename_i o ho
      split
      · obtain ⟨u1, u2⟩ := popInsert_no_underflow h ho
        cases hpi : popInsert o d nodes with
        | error er =>
          rw [hpi] at u1 u2
          simp only [reduceCtorEq, false_imp_iff, implies_true, true_and, ne_eq,
            Except.error.injEq] at u1 u2 ⊢
          exact ⟨u1, u2⟩
        | ok nodes' =>
          exact ih (popInsert_cnt h ho hpi)
      · refine ⟨?_, by simp, by simp⟩
        rintro r hr
        simp only [Except.ok.injEq] at hr
        subst hr
        exact h

theorem popWhile_mem {p : Op → Bool} {nodes : List (Tree V)} {ops : List OpData}
    {r : List (Tree V) × List OpData} (hr : popWhile p nodes ops = .ok r) : ∀ d ∈ r.2, d ∈ ops := by
  induction ops generalizing nodes with
  | nil =>
    simp only [popWhile, Except.ok.injEq] at hr
    subst hr; simp
  | cons d ds ih =>
    simp only [popWhile] at hr
    split at hr
    · simp only [Except.ok.injEq] at hr; subst hr; simp
    · split at hr
      · split at hr
        · cases hr
        · intro d' hd'
          exact List.mem_cons_of_mem _ (ih hr d' hd')
      · simp only [Except.ok.injEq] at hr; subst hr; simp

theorem popWhile_head {nodes : List (Tree V)} {ops : List OpData} {r : List (Tree V) × List OpData}
    (hr : popWhile (fun _ => true) nodes ops = .ok r) : ∀ d ds, r.2 = d :: ds → d.op = none := by
  induction ops generalizing nodes with
  | nil =>
    intro d ds hd
    simp only [popWhile, Except.ok.injEq] at hr
    subst hr; cases hd
  | cons d ds ih =>
    intro d' ds' hd
    simp only [popWhile] at hr
    split at hr
    · rename_i hn
      simp only [Except.ok.injEq] at hr; subst hr
      simp only [List.cons.injEq] at hd
      rw [← hd.1]; exact hn
    · simp only [if_true] at hr
      split at hr
      · cases hr
      · exact ih hr d' ds' hd

/-- State after a complete operand: `Cnt 1`, or a function whose parameter list
has just been closed on top of the stack. -/
def Done (nodes : List (Tree V)) (ops : List OpData) (L : List Nat) : Prop :=
  Cnt 1 false nodes ops L ∨
  ∃ f a k ds, ops = ⟨some f, a, k⟩ :: ds ∧ f.placement = .function ∧ f.prec = 255 ∧
    Shape false ds ∧ nodes.length = a + need ds ∧ (accounted nodes ops).Perm L

theorem popWhile_done {p : Op → Bool} {nodes : List (Tree V)} {ops : List OpData} {L : List Nat}
    (h : Done nodes ops L) (hp : ∀ f : Op, f.placement = .function → f.prec = 255 → p f = true) :
    (∀ r, popWhile p nodes ops = .ok r → Cnt 1 false r.1 r.2 L) ∧
    popWhile p nodes ops ≠ .error .ub ∧ popWhile p nodes ops ≠ .error .underflow := by
  rcases h with h | ⟨f, a, k, ds, rfl, hf, hpr, hsh, hc, hperm⟩
  · have := popWhile_cnt (p := p) h
    exact ⟨this.1, this.2.1, this.2.2 (by omega)⟩
  · simp only [popWhile, hp f hf hpr, if_true]
    cases hpi : popInsert f ⟨some f, a, k⟩ nodes with
    | error er =>
      simp only [reduceCtorEq, false_imp_iff, implies_true, true_and, ne_eq, Except.error.injEq]
      unfold popInsert at hpi
      simp only [hf, ne_eq, not_true, and_false, if_false] at hpi
      split at hpi
      · cases hpi
        simp
      · rw [if_neg (by omega)] at hpi
        cases hpi
    | ok nodes' =>
      obtain ⟨-, h2, rfl⟩ := popInsert_ok hpi
      have : Cnt 1 false (.op f (nodes.take a).reverse k :: nodes.drop a) ds L := by
        refine ⟨hsh, ?_, (accounted_pop (d := ⟨some f, a, k⟩) rfl a).trans hperm⟩
        simp only [List.length_cons, List.length_drop]
        omega
      have := popWhile_cnt (p := p) this
      exact ⟨this.1, this.2.1, this.2.2 (by omega)⟩

/-- Invariant of the parser state; `L` are the token indices accounted for. -/
structure SInv (st : PState V) (L : List Nat) : Prop where
  excl : st.awaitParams = true → st.awaitInfix = false
  yes : st.awaitInfix = true → Done st.nodes st.ops L
  no : st.awaitInfix = false → Cnt 0 st.awaitParams st.nodes st.ops L

/-- The outcome is neither undefined nor an uninitialised result. -/
def Fine : PRes V → Prop
  | .ub => False
  | .okUninit => False
  | _ => True

theorem exit_fine {e : PopErr} (h1 : e ≠ .ub) (h2 : e ≠ .underflow) : Fine (e.exit : PRes V) := by
  cases e <;> simp_all [PopErr.exit, Fine]

theorem closing_fine {e : PopErr} {i : Nat} (h1 : e ≠ .ub) : Fine (e.closing i : PRes V) := by
  cases e <;> simp_all [PopErr.closing, Fine]

theorem perm_snoc {α : Type} {a b : List α} {x : α} (h : a.Perm b) : (x :: a).Perm (b ++ [x]) :=
  (List.Perm.cons x h).trans (List.perm_append_singleton x b).symm

theorem accounted_push (nodes : List (Tree V)) (ops : List OpData) (o : Op) (a i : Nat) :
    (accounted nodes (⟨some o, a, i⟩ :: ops)).Perm (i :: accounted nodes ops) := by
  unfold accounted
  simp only [List.filterMap_cons, Option.map_some]
  exact List.perm_middle

theorem accounted_arity (nodes : List (Tree V)) (ops : List OpData) (o : Option Op) (a b i : Nat) :
    accounted nodes (⟨o, a, i⟩ :: ops) = accounted nodes (⟨o, b, i⟩ :: ops) := by
  unfold accounted
  cases o <;> simp

theorem pops_function {o : Op} (hw : WFOp o) (hpl : o.placement = .infix ∨ o.placement = .postfix) :
    ∀ f : Op, f.placement = .function → f.prec = 255 → pops o f = true := by
  intro f _ hf
  unfold pops
  rcases hpl with h | h
  · rcases (hw.inf h).2 with h' | ⟨h', h''⟩
    · simp [hf, h']
    · simp [hf, h', h'']
  · obtain ⟨-, h1, h2⟩ := hw.post h
    rcases Nat.lt_or_eq_of_le h1 with h' | h'
    · simp [hf, h']
    · simp [hf, h', h2]

/-- Pushing an infix or postfix operator after a complete operand. -/
theorem pushOperator_done {o : Op} {i : Nat} {nodes : List (Tree V)} {ops : List OpData}
    {L : List Nat} (hw : WFOp o) (hpl : o.placement = .infix ∨ o.placement = .postfix)
    (h : Done nodes ops L) :
    (∀ r, pushOperator o i nodes ops = .ok r →
      ∃ ops', r.2 = ⟨some o, startArity o, i⟩ :: ops' ∧ Cnt 1 false r.1 ops' L) ∧
    (∀ e, pushOperator o i nodes ops = .error e → e ≠ .ub ∧ e ≠ .underflow) := by
  obtain ⟨h1, h2, h3⟩ := popWhile_done h (pops_function hw hpl)
  unfold pushOperator
  rw [if_pos hpl]
  cases hp : popWhile (pops o) nodes ops with
  | error e =>
    rw [hp] at h2 h3
    refine ⟨by simp, ?_⟩
    intro e' he'
    simp only [Except.error.injEq] at he'
    subst he'
    exact ⟨fun hc => h2 (by rw [hc]), fun hc => h3 (by rw [hc])⟩
  | ok r =>
    refine ⟨?_, by simp⟩
    intro r' hr'
    simp only [Except.ok.injEq] at hr'
    subst hr'
    exact ⟨r.2, rfl, h1 r hp⟩

theorem startArity_infix {o : Op} (hw : WFOp o) (h : o.placement = .infix) : startArity o = 2 := by
  unfold startArity
  rw [h, (hw.inf h).1]
  rfl

theorem startArity_prefix {o : Op} (hw : WFOp o) (h : o.placement = .prefix) : startArity o = 1 := by
  unfold startArity
  rw [h, hw.pre h]
  rfl

theorem startArity_postfix {o : Op} (hw : WFOp o) (h : o.placement = .postfix) : startArity o = 1 := by
  unfold startArity
  rw [h, (hw.post h).1]
  rfl

theorem startArity_function {o : Op} (h : o.placement = .function) : startArity o = 0 := by
  unfold startArity
  simp [h]

theorem cnt_push_infix {o : Op} {i : Nat} {nodes : List (Tree V)} {ops : List OpData}
    {L : List Nat} (hpl : o.placement = .infix) (h : Cnt 1 false nodes ops L) :
    Cnt 0 false nodes (⟨some o, 2, i⟩ :: ops) (L ++ [i]) := by
  refine ⟨?_, ?_, (accounted_push _ _ _ _ _).trans (perm_snoc h.perm)⟩
  · unfold Shape
    simp only [hpl, reduceCtorEq, if_false]
    exact ⟨by decide, h.shape⟩
  · unfold need
    simp only [hpl, reduceCtorEq, if_false]
    have := h.count
    omega

variable {E : Env} {strtod : Str → Option V}

theorem stepGlue_inv (hE : WFEnv E) {i : Nat} {tok : Str} {st : PState V} {L : List Nat}
    (h : SInv st L) :
    (∀ st', stepGlue E i tok st = .ok st' →
      ∃ G : List Nat, (E.glue = none → G = []) ∧ (∀ x ∈ G, x = i) ∧ SInv st' (L ++ G)) ∧
    (∀ e, stepGlue E i tok st = .error e → Fine e) := by
  unfold stepGlue
  cases hg : E.glue with
  | none =>
    refine ⟨?_, by simp⟩
    intro st' hst
    simp only [Except.ok.injEq] at hst
    subst hst
    exact ⟨[], by simp, by simp, by simpa using h⟩
  | some g =>
    obtain ⟨hpl, hw⟩ := hE.glue g hg
    simp only
    split
    · rename_i hcond
      simp only [Bool.and_eq_true] at hcond
      have haw : st.awaitInfix = true := hcond.1.1.1.1
      obtain ⟨p1, p2⟩ := pushOperator_done (i := i) hw (.inl hpl) (h.yes haw)
      cases hp : pushOperator g i st.nodes st.ops with
      | error e =>
        refine ⟨by simp, ?_⟩
        intro e' he'
        simp only [Except.error.injEq] at he'
        subst he'
        exact exit_fine (p2 e hp).1 (p2 e hp).2
      | ok r =>
        obtain ⟨nodes, ops⟩ := r
        obtain ⟨ops', hops, hcnt⟩ := p1 _ hp
        simp only at hops hcnt
        subst hops
        refine ⟨?_, by simp⟩
        intro st' hst
        simp only [Except.ok.injEq] at hst
        subst hst
        refine ⟨[i], by simp, by simp, ?_⟩
        have hpar : st.awaitParams = false := by
          rw [Bool.eq_false_iff]
          intro hc
          rw [h.excl hc] at haw
          cases haw
        refine ⟨by simp, by simp, fun _ => ?_⟩
        simp only [hpar]
        exact cnt_push_infix hpl hcnt
    · refine ⟨?_, by simp⟩
      intro st' hst
      simp only [Except.ok.injEq] at hst
      subst hst
      exact ⟨[], by simp, by simp, by simpa using h⟩

theorem stepClosing_inv (hfn : ∀ d ∈ (st : PState V).ops, ∀ o, d.op = some o →
      o.placement = .function → o.prec = 255) {i : Nat} {L : List Nat}
    (h : SInv st L) (hpar : st.awaitParams = false) :
    (∀ st', stepClosing i st = .ok st' → SInv st' L) ∧
    (∀ e, stepClosing i st = .error e → Fine e) := by
  unfold stepClosing
  cases haw : st.awaitInfix with
  | true =>
    obtain ⟨h1, h2, -⟩ := popWhile_done (p := fun _ => true) (h.yes haw) (by simp)
    cases hp : popWhile (fun _ => true) st.nodes st.ops with
    | error e =>
      rw [hp] at h2
      refine ⟨by simp, ?_⟩
      intro e' he'
      simp only [Except.error.injEq] at he'
      subst he'
      exact closing_fine (fun hc => h2 (by rw [hc]))
    | ok r =>
      obtain ⟨nodes, ops⟩ := r
      have hc := h1 _ hp
      cases ops with
      | nil =>
        refine ⟨by simp, ?_⟩
        intro e' he'
        simp only [Except.error.injEq] at he'
        subst he'
        trivial
      | cons d ops =>
        have hd := popWhile_head hp d ops rfl
        have hsh := hc.shape
        have hcn := hc.count
        have hpm := hc.perm
        unfold Shape at hsh
        unfold need at hcn
        simp only [hd] at hsh hcn
        have hacc : accounted nodes (d :: ops) = accounted nodes ops := by
          unfold accounted
          simp [hd]
        rw [hacc] at hpm
        simp only [if_true]
        refine ⟨?_, ?_⟩
        · intro st' hst
          split at hst
          · rename_i o a k ops'
            split at hst
            · rename_i hf
              simp only [Except.ok.injEq] at hst
              subst hst
              refine ⟨by simp [hpar], fun _ => .inr ⟨o, a + 1, k, ops', rfl, hf, ?_, ?_, ?_, ?_⟩, by simp⟩
              · exact hfn ⟨some o, a, k⟩ (popWhile_mem hp _ (by simp)) o rfl hf
              · unfold Shape at hsh
                exact hsh.2
              · unfold need at hcn
                simp only [hf, if_true] at hcn
                simp only
                omega
              · rw [accounted_arity nodes ops' (some o) (a + 1) a k]
                exact hpm
            · rename_i hf
              simp only [Except.ok.injEq] at hst
              subst hst
              refine ⟨by simp [hpar], fun _ => .inl ⟨?_, hcn, hpm⟩, by simp⟩
              unfold Shape at hsh ⊢
              simp only [hf, if_false] at hsh ⊢
              exact hsh
          · rename_i hno
            simp only [Except.ok.injEq] at hst
            subst hst
            refine ⟨by simp [hpar], fun _ => .inl ⟨?_, hcn, hpm⟩, by simp⟩
            cases ops with
            | nil => trivial
            | cons d' ds' =>
              obtain ⟨o', a', k'⟩ := d'
              cases o' with
              | none => unfold Shape at hsh ⊢; exact hsh
              | some o' => exact absurd rfl (hno o' a' k' ds')
        · intro e he
          split at he
          · split at he <;> cases he
          · cases he
  | false =>
    have hcnt := h.no haw
    rw [hpar] at hcnt
    obtain ⟨h1, h2, -⟩ := popWhile_cnt (p := fun _ => true) hcnt
    cases hp : popWhile (fun _ => true) st.nodes st.ops with
    | error e =>
      rw [hp] at h2
      refine ⟨by simp, ?_⟩
      intro e' he'
      simp only [Except.error.injEq] at he'
      subst he'
      exact closing_fine (fun hc => h2 (by rw [hc]))
    | ok r =>
      obtain ⟨nodes, ops⟩ := r
      have hc := h1 _ hp
      cases ops with
      | nil =>
        refine ⟨by simp, ?_⟩
        intro e' he'
        simp only [Except.error.injEq] at he'
        subst he'
        trivial
      | cons d ops =>
        have hd := popWhile_head hp d ops rfl
        have hsh := hc.shape
        have hcn := hc.count
        have hpm := hc.perm
        unfold Shape at hsh
        unfold need at hcn
        simp only [hd] at hsh hcn
        have hacc : accounted nodes (d :: ops) = accounted nodes ops := by
          unfold accounted
          simp [hd]
        rw [hacc] at hpm
        simp only [Bool.false_eq_true, if_false]
        refine ⟨?_, ?_⟩
        · intro st' hst
          split at hst
          · rename_i o a k ops'
            split at hst
            · cases hst
            · rename_i hf
              have hf1 : o.placement = .function := by
                by_contra hx; exact hf (.inl hx)
              have hf2 : a = 0 := by
                by_contra hx; exact hf (.inr hx)
              subst hf2
              simp only [Except.ok.injEq] at hst
              subst hst
              refine ⟨by simp [hpar], fun _ => .inr ⟨o, 0, k, ops', rfl, hf1, ?_, ?_, ?_, hpm⟩, by simp⟩
              · exact hfn ⟨some o, 0, k⟩ (popWhile_mem hp _ (by simp)) o rfl hf1
              · unfold Shape at hsh
                exact hsh.2
              · unfold need at hcn
                simp only [hf1, if_true] at hcn
                simp only
                omega
          · cases hst
        · intro e he
          split at he
          · split at he
            · simp only [Except.error.injEq] at he; subst he; trivial
            · cases he
          · simp only [Except.error.injEq] at he; subst he; trivial

/-- The entry below the topmost parenthesis is a parenthesis. -/
def nested : List OpData → Bool
  | [] => false
  | d :: ds =>
    match d.op with
    | some _ => nested ds
    | none => match ds with
      | ⟨none, _, _⟩ :: _ => true
      | _ => false

theorem popWhile_nested {p : Op → Bool} {nodes : List (Tree V)} {ops : List OpData}
    {r : List (Tree V) × List OpData} (hr : popWhile p nodes ops = .ok r) :
    nested r.2 = nested ops := by
  induction ops generalizing nodes with
  | nil =>
    simp only [popWhile, Except.ok.injEq] at hr
    subst hr; rfl
  | cons d ds ih =>
    simp only [popWhile] at hr
    split at hr
    · simp only [Except.ok.injEq] at hr; subst hr; rfl
    · rename_i o ho
      have : nested (d :: ds) = nested ds := by
        simp only [nested, ho]
      split at hr
      · split at hr
        · cases hr
        · rw [this]; exact ih hr
      · simp only [Except.ok.injEq] at hr; subst hr; rfl

theorem stepDelimiter_inv {i : Nat} {st : PState V} {L : List Nat}
    (h : SInv st L) (hn : nested st.ops = false) :
    (∀ st', stepDelimiter i st = .ok st' → SInv st' L) ∧
    (∀ e, stepDelimiter i st = .error e → Fine e) := by
  unfold stepDelimiter
  cases haw : st.awaitInfix with
  | false =>
    simp only [Bool.not_false, if_true, reduceCtorEq, false_imp_iff, implies_true, true_and,
      Except.error.injEq]
    rintro e rfl
    trivial
  | true =>
    have hpar : st.awaitParams = false := by
      rw [Bool.eq_false_iff]
      intro hc
      rw [h.excl hc] at haw
      cases haw
    simp only [Bool.not_true, Bool.false_eq_true, if_false]
    obtain ⟨h1, h2, h3⟩ := popWhile_done (p := fun _ => true) (h.yes haw) (by simp)
    cases hp : popWhile (fun _ => true) st.nodes st.ops with
    | error e =>
      rw [hp] at h2 h3
      refine ⟨by simp, ?_⟩
      intro e' he'
      simp only [Except.error.injEq] at he'
      subst he'
      exact exit_fine (fun hc => h2 (by rw [hc])) (fun hc => h3 (by rw [hc]))
    | ok r =>
      obtain ⟨nodes, ops⟩ := r
      have hc := h1 _ hp
      have hhead := popWhile_head hp
      have hns := popWhile_nested hp
      simp only at hc hhead hns
      rw [hn] at hns
      refine ⟨?_, ?_⟩
      · intro st' hst
        split at hst
        · cases hst
        · rename_i nodes' p o a k ops' heq
          simp only [Except.ok.injEq, Prod.mk.injEq] at heq
          obtain ⟨rfl, rfl⟩ := heq
          split at hst
          · rename_i hf
            simp only [Except.ok.injEq] at hst
            subst hst
            refine ⟨by simp [hpar], by simp, fun _ => ?_⟩
            have hd := hhead p _ rfl
            have hsh := hc.shape
            have hcn := hc.count
            have hpm := hc.perm
            unfold Shape at hsh
            unfold need at hcn
            simp only [hd] at hsh hcn
            unfold Shape at hsh
            unfold need at hcn
            simp only [hf, if_true] at hsh hcn
            refine ⟨?_, ?_, ?_⟩
            · unfold Shape
              simp only [hd]
              unfold Shape
              simp only [hf, if_true]
              exact hsh
            · simp only
              unfold need
              simp only [hd]
              unfold need
              simp only [hf, if_true]
              omega
            · refine List.Perm.trans ?_ hpm
              have : accounted nodes (p :: ⟨some o, a + 1, k⟩ :: ops')
                  = accounted nodes (p :: ⟨some o, a, k⟩ :: ops') := by
                unfold accounted; simp [List.filterMap_cons, hd]
              simp only
              rw [this]
          · cases hst
        · cases hst
        · cases hst
      · intro e he
        split at he
        · rename_i heq; cases heq
        · split at he
          · cases he
          · simp only [Except.error.injEq] at he; subst he; trivial
        · rename_i x y z w v heq
          simp only [Except.ok.injEq, Prod.mk.injEq] at heq
          obtain ⟨rfl, rfl⟩ := heq
          have hd := hhead _ _ rfl
          simp [nested, hd] at hns
        · simp only [Except.error.injEq] at he; subst he; trivial

theorem stepLeaf_inv {i : Nat} {tok : Str} {st : PState V} {L : List Nat}
    (h : SInv st L) (haw : st.awaitInfix = false) (hpar : st.awaitParams = false) :
    (∀ st', stepLeaf E strtod i tok st = .ok st' → SInv st' (L ++ [i])) ∧
    (∀ e, stepLeaf E strtod i tok st = .error e → Fine e) := by
  have hc := h.no haw
  rw [hpar] at hc
  have key : ∀ t : Tree V, treeToks t = [i] →
      SInv { st with nodes := t :: st.nodes, awaitInfix := true } (L ++ [i]) := by
    intro t ht
    refine ⟨by simp [hpar], fun _ => .inl ⟨hc.shape, ?_, ?_⟩, by simp⟩
    · simp only [List.length_cons]
      have := hc.count
      omega
    · have : accounted (t :: st.nodes) st.ops = i :: accounted st.nodes st.ops := by
        unfold accounted
        simp [ht]
      simp only
      rw [this]
      exact perm_snoc hc.perm
  unfold stepLeaf
  split
  · refine ⟨?_, by simp⟩
    intro st' hst
    simp only [Except.ok.injEq] at hst
    subst hst
    exact key _ (by simp [treeToks])
  · split
    · refine ⟨by simp, ?_⟩
      intro e he
      simp only [Except.error.injEq] at he; subst he; trivial
    · split
      · refine ⟨by simp, ?_⟩
        intro e he
        simp only [Except.error.injEq] at he; subst he; trivial
      · refine ⟨?_, by simp⟩
        intro st' hst
        simp only [Except.ok.injEq] at hst
        subst hst
        exact key _ (by simp [treeToks])

theorem stepOperand_inv (hE : WFEnv E) {i : Nat} {tok : Str} {st : PState V} {L : List Nat}
    (h : SInv st L) (haw : st.awaitInfix = false) (hpar : st.awaitParams = false) :
    (∀ st', stepOperand E strtod i tok st = .ok st' → SInv st' (L ++ [i])) ∧
    (∀ e, stepOperand E strtod i tok st = .error e → Fine e) := by
  have hc := h.no haw
  rw [hpar] at hc
  unfold stepOperand
  split
  · rename_i f hf
    obtain ⟨hpl, hw⟩ := hE.op _ _ _ hf
    have hpush : pushOperator f i st.nodes st.ops = .ok (st.nodes, ⟨some f, 0, i⟩ :: st.ops) := by
      unfold pushOperator
      rw [if_neg (by simp [hpl]), startArity_function hpl]
    rw [hpush]
    simp only
    split
    · rename_i ha
      have hpi : popInsert f ⟨some f, 0, i⟩ st.nodes = .ok (.op f [] i :: st.nodes) := by
        unfold popInsert
        simp [ha, hpl]
      rw [hpi]
      refine ⟨?_, by simp⟩
      intro st' hst
      simp only [Except.ok.injEq] at hst
      subst hst
      refine ⟨by simp [hpar], fun _ => .inl ⟨hc.shape, ?_, ?_⟩, by simp⟩
      · simp only [List.length_cons]
        have := hc.count
        omega
      · have : accounted (.op f [] i :: st.nodes) st.ops = i :: accounted st.nodes st.ops := by
          unfold accounted
          simp [treeToks]
        simp only
        rw [this]
        exact perm_snoc hc.perm
    · refine ⟨?_, by simp⟩
      intro st' hst
      simp only [Except.ok.injEq] at hst
      subst hst
      refine ⟨by simp, by simp, fun _ => ⟨?_, ?_, (accounted_push _ _ _ _ _).trans (perm_snoc hc.perm)⟩⟩
      · unfold Shape
        simp only [hpl, if_true]
        exact ⟨trivial, hc.shape⟩
      · unfold need
        simp only [hpl, if_true]
        have := hc.count
        omega
  · split
    · rename_i p hp
      obtain ⟨hpl, hw⟩ := hE.op _ _ _ hp
      have hpush : pushOperator p i st.nodes st.ops = .ok (st.nodes, ⟨some p, 1, i⟩ :: st.ops) := by
        unfold pushOperator
        rw [if_neg (by simp [hpl]), startArity_prefix hw hpl]
      rw [hpush]
      refine ⟨?_, by simp⟩
      intro st' hst
      simp only [Except.ok.injEq] at hst
      subst hst
      refine ⟨by simp, by simp, fun _ => ⟨?_, ?_, (accounted_push _ _ _ _ _).trans (perm_snoc hc.perm)⟩⟩
      · simp only [hpar]
        unfold Shape
        simp only [hpl, reduceCtorEq, if_false]
        exact ⟨by decide, hc.shape⟩
      · unfold need
        simp only [hpl, reduceCtorEq, if_false]
        have := hc.count
        omega
    · exact stepLeaf_inv h haw hpar

theorem stepOperator_inv (hE : WFEnv E) {i : Nat} {tok : Str} {st : PState V} {L : List Nat}
    (h : SInv st L) (haw : st.awaitInfix = true) :
    (∀ st', stepOperator E i tok st = .ok st' → SInv st' (L ++ [i])) ∧
    (∀ e, stepOperator E i tok st = .error e → Fine e) := by
  have hpar : st.awaitParams = false := by
    rw [Bool.eq_false_iff]
    intro hc
    rw [h.excl hc] at haw
    cases haw
  unfold stepOperator
  split
  · rename_i o ho
    obtain ⟨hpl, hw⟩ := hE.op _ _ _ ho
    obtain ⟨p1, p2⟩ := pushOperator_done (i := i) hw (.inl hpl) (h.yes haw)
    cases hp : pushOperator o i st.nodes st.ops with
    | error e =>
      refine ⟨by simp, ?_⟩
      intro e' he'
      simp only [Except.error.injEq] at he'
      subst he'
      exact exit_fine (p2 e hp).1 (p2 e hp).2
    | ok r =>
      obtain ⟨nodes, ops⟩ := r
      obtain ⟨ops', hops, hcnt⟩ := p1 _ hp
      simp only at hops hcnt
      subst hops
      refine ⟨?_, by simp⟩
      intro st' hst
      simp only [Except.ok.injEq] at hst
      subst hst
      refine ⟨by simp, by simp, fun _ => ?_⟩
      simp only [hpar, startArity_infix hw hpl]
      exact cnt_push_infix hpl hcnt
  · split
    · rename_i o ho
      obtain ⟨hpl, hw⟩ := hE.op _ _ _ ho
      obtain ⟨p1, p2⟩ := pushOperator_done (i := i) hw (.inr hpl) (h.yes haw)
      cases hp : pushOperator o i st.nodes st.ops with
      | error e =>
        refine ⟨by simp, ?_⟩
        intro e' he'
        simp only [Except.error.injEq] at he'
        subst he'
        exact exit_fine (p2 e hp).1 (p2 e hp).2
      | ok r =>
        obtain ⟨nodes, ops⟩ := r
        obtain ⟨ops', hops, hcnt⟩ := p1 _ hp
        simp only at hops hcnt
        subst hops
        have hcn := hcnt.count
        rw [startArity_postfix hw hpl]
        have hpi : popInsert o ⟨some o, 1, i⟩ nodes
            = .ok (.op o (nodes.take 1).reverse i :: nodes.drop 1) := by
          unfold popInsert
          rw [if_neg (by simp [(hw.post hpl).1]), if_neg (by simp [sizeMax]), if_neg (by simp only; omega)]
        simp only [hpi]
        refine ⟨?_, by simp⟩
        intro st' hst
        simp only [Except.ok.injEq] at hst
        subst hst
        refine ⟨by simp [hpar], fun _ => .inl ⟨hcnt.shape, ?_, ?_⟩, by simp⟩
        · simp only [List.length_cons, List.length_drop]
          omega
        · have := (accounted_pop (o := o) (d := ⟨some o, 1, i⟩) (nodes := nodes) (ds := ops') rfl 1).trans
            (accounted_push nodes ops' o 1 i)
          exact this.trans (perm_snoc hcnt.perm)
    · refine ⟨by simp, ?_⟩
      intro e he
      simp only [Except.error.injEq] at he; subst he; trivial

/-- Tokens that become nodes of the tree: no spaces, parentheses, delimiters. -/
def significant (tok : Str) : Bool :=
  !headIs isSpace tok && !isOpeningParen tok && !isClosingParen tok && !isDelimiter tok

theorem stepTok_inv (hE : WFEnv E) {i : Nat} {tok : Str} {st : PState V} {L : List Nat}
    (h : SInv st L)
    (hfn : ∀ d ∈ st.ops, ∀ o, d.op = some o → o.placement = .function → o.prec = 255)
    (hn : headIs isSpace tok = false → isDelimiter tok = true → nested st.ops = false) :
    (∀ st', stepTok E strtod i tok st = .ok st' →
      ∃ G : List Nat, (E.glue = none → G = []) ∧ (∀ x ∈ G, x = i) ∧
        SInv st' (L ++ G ++ (if significant tok then [i] else []))) ∧
    (∀ e, stepTok E strtod i tok st = .error e → Fine e) := by
  unfold stepTok
  cases hsp : headIs isSpace tok with
  | true =>
    refine ⟨?_, by simp⟩
    intro st' hst
    simp only [if_true, Except.ok.injEq] at hst
    subst hst
    exact ⟨[], by simp, by simp, by simpa [significant, hsp] using h⟩
  | false =>
    obtain ⟨g1, g2⟩ := stepGlue_inv (i := i) (tok := tok) hE h
    simp only [Bool.false_eq_true, if_false]
    cases hg : stepGlue E i tok st with
    | error e =>
      refine ⟨by simp, ?_⟩
      intro e' he'
      simp only [Except.error.injEq] at he'
      subst he'
      exact g2 e hg
    | ok st1 =>
      obtain ⟨G, hG1, hG2, hinv⟩ := g1 st1 hg
      -- a closing parenthesis or delimiter never triggers the glue operator
      have hsame : (isClosingParen tok = true ∨ isDelimiter tok = true) → st1 = st ∧ G = [] ∨
          st1 = st := by
        intro hcd
        right
        unfold stepGlue at hg
        split at hg
        · simpa using hg.symm
        · rcases hcd with hcd | hcd <;> simp [hcd] at hg <;> exact hg.symm
      simp only
      unfold stepRest
      split
      · rename_i hop
        split
        · refine ⟨by simp, ?_⟩
          intro e he
          simp only [Except.error.injEq] at he; subst he; trivial
        · rename_i haw
          refine ⟨?_, by simp⟩
          intro st' hst
          simp only [Except.ok.injEq] at hst
          subst hst
          refine ⟨G, hG1, hG2, ?_⟩
          have hsig : significant tok = false := by simp [significant, hop]
          simp only [hsig, Bool.false_eq_true, if_false, List.append_nil]
          have haw' : st1.awaitInfix = false := by simpa using haw
          have hc := hinv.no haw'
          refine ⟨by simp, by simp [haw'], fun _ => ⟨?_, ?_, ?_⟩⟩
          · unfold Shape
            have hs := hc.shape
            simp only
            cases hb : st1.awaitParams with
            | true => rw [hb] at hs; exact hs
            | false => rw [hb] at hs; exact hs.mono
          · unfold need
            exact hc.count
          · have : accounted st1.nodes (⟨none, sizeMax, i⟩ :: st1.ops) = accounted st1.nodes st1.ops := by
              unfold accounted; simp
            simp only
            rw [this]
            exact hc.perm
      · rename_i hop
        have hop' : isOpeningParen tok = false := by simpa using hop
        split
        · refine ⟨by simp, ?_⟩
          intro e he
          simp only [Except.error.injEq] at he; subst he; trivial
        · rename_i hpar
          have hpar' : st1.awaitParams = false := by simpa using hpar
          split
          · rename_i hcl
            have hst1 : st1 = st := by
              rcases hsame (.inl hcl) with h | h
              · exact h.1
              · exact h
            have hsig : significant tok = false := by simp [significant, hcl]
            have := stepClosing_inv (st := st1) (i := i) (by rw [hst1]; exact hfn) hinv hpar'
            refine ⟨?_, this.2⟩
            intro st' hst
            refine ⟨G, hG1, hG2, ?_⟩
            simpa [hsig] using this.1 st' hst
          · rename_i hcl
            have hcl' : isClosingParen tok = false := by simpa using hcl
            split
            · rename_i hdl
              have hst1 : st1 = st := by
                rcases hsame (.inr hdl) with h | h
                · exact h.1
                · exact h
              have hsig : significant tok = false := by simp [significant, hdl]
              have := stepDelimiter_inv (st := st1) (i := i) hinv (by rw [hst1]; exact hn hsp hdl)
              refine ⟨?_, this.2⟩
              intro st' hst
              refine ⟨G, hG1, hG2, ?_⟩
              simpa [hsig] using this.1 st' hst
            · rename_i hdl
              have hdl' : isDelimiter tok = false := by simpa using hdl
              have hsig : significant tok = true := by
                simp [significant, hdl', hcl', hop', hsp]
              split
              · rename_i haw
                have := stepOperator_inv (i := i) (tok := tok) hE hinv haw
                refine ⟨?_, this.2⟩
                intro st' hst
                refine ⟨G, hG1, hG2, ?_⟩
                simpa [hsig] using this.1 st' hst
              · rename_i haw
                have haw' : st1.awaitInfix = false := by simpa using haw
                have := stepOperand_inv (strtod := strtod) (i := i) (tok := tok) hE hinv haw' hpar'
                refine ⟨?_, this.2⟩
                intro st' hst
                refine ⟨G, hG1, hG2, ?_⟩
                simpa [hsig] using this.1 st' hst

end Verif
