import Verif.Lemmas.Words
import Verif.Props.Drawing
import Verif.Props.Layout

/-!
# Texts of cells, and expressions that can be printed
-/

namespace Verif.HelpProps
open Layout LayoutSpec Drawing DrawingSpec LayoutProps SessionProps
variable {V ε ρ : Type}

theorem tidyLine_noNewline {b s} (h : TidyLine b s) : '\n' ∉ s := by
  induction h with
  | nil => simp
  | char _ h _ _ ih => simp only [List.mem_cons, not_or]; exact ⟨fun e => h e.symm, ih⟩
  | escape hb _ ih =>
    simp only [List.mem_cons, List.mem_append, not_or]
    exact ⟨by decide, fun h => (hb _ h).2 rfl, by decide, ih⟩

theorem tidy_line {s : Str} (h : TidyLine true s) : LayoutSpec.Tidy (some s) := by
  have hn := tidyLine_noNewline h
  refine ⟨fun e => hn (List.mem_of_head? e), fun ls hls l hl => ?_⟩
  cases hls with
  | last _ => rw [List.mem_singleton.1 hl]; exact h
  | more _ _ => simp at hn

theorem linesOf_line {s : Str} (h : '\n' ∉ s) : linesOf s = [s] := by
  induction s with
  | nil => rfl
  | cons c s ih =>
    simp only [List.mem_cons, not_or] at h
    rw [linesOf, if_neg fun e => h.1 e.symm, ih h.2]

/-- Operators and numbers of operands that can be printed. -/
theorem builtIn_prints {o : Op} {n : Nat} (h : BuiltIn o n) :
    Plain o.name ∧ match o.placement with
      | .prefix => '%' ∉ o.name ∧ 0 < n
      | .postfix => 0 < n
      | .infix => 1 < n
      | .function => True := by
  obtain ⟨⟨q, h1, h2⟩, h3⟩ := h
  have key : ∀ q ∈ arithOps, (q.name ≠ [] ∧ ∀ c ∈ q.name, 32 ≤ c.toNat ∧ c.toNat < 127) ∧ match q.placement with
      | .prefix => '%' ∉ q.name ∧ q.arity = .fixed 1
      | .postfix => q.arity = .fixed 1
      | .infix => q.arity = .fixed 2
      | .function => True := by
    have : (arithOps.all fun q => decide (q.name ≠ [] ∧ ∀ c ∈ q.name, 32 ≤ c.toNat ∧ c.toNat < 127) && match q.placement with
      | .prefix => decide ('%' ∉ q.name ∧ q.arity = .fixed 1)
      | .postfix => decide (q.arity = .fixed 1)
      | .infix => decide (q.arity = .fixed 2)
      | .function => true) = true := by decide +kernel
    intro q hq
    have := List.all_eq_true.1 this q hq
    rw [Bool.and_eq_true] at this
    refine ⟨of_decide_eq_true this.1, ?_⟩
    have h2 := this.2
    split at h2
    · exact of_decide_eq_true h2
    · exact of_decide_eq_true h2
    · exact of_decide_eq_true h2
    · trivial
  have hq := key q (List.mem_of_getElem? h1)
  rw [h2] at h3 ⊢
  dsimp only at h3 ⊢
  refine ⟨hq.1, ?_⟩
  have h4 := hq.2
  cases hp : q.placement <;> rw [hp] at h4 <;> dsimp only at h4 ⊢
  all_goals first
    | trivial
    | (rw [h4.2] at h3; simp at h3; exact ⟨h4.1, by omega⟩)
    | (rw [h4] at h3; simp at h3; omega)

/-- An operator can be printed with a number of operands. -/
def Prints (o : Op) (n : Nat) : Prop :=
  match o.placement with
  | .prefix => '%' ∉ o.name ∧ 0 < n
  | .postfix => 0 < n
  | .infix => 1 < n
  | .function => True

/-- An expression of such operators can be printed. -/
theorem tree_prints (fc : V → Str) (fv : Str → Str) (t : Tree V) (h : AllOps Prints t) :
    ∀ l r, ∃ ps, printTree fc fv t l r = .ok ps := by
  induction t using Tree.induct with
  | hc v i => intro l r; exact ⟨_, by rw [printTree]⟩
  | hv n x i => intro l r; exact ⟨_, by rw [printTree]⟩
  | ho o cs i ih =>
    intro l r
    cases h with
    | op ho hcs =>
      have hp := ho
      unfold Prints at hp
      have hargs : ∀ ds : List (Tree V), (∀ d ∈ ds, d ∈ cs) → ∃ ps, printArgs fc fv ds = .ok ps := by
        intro ds
        induction ds with
        | nil => intro _; exact ⟨_, by rw [printArgs]⟩
        | cons d ds ihd =>
          intro hd
          obtain ⟨a, ha⟩ := ih d (hd d (by simp)) (hcs d (hd d (by simp))) false false
          cases ds with
          | nil => exact ⟨a, by rw [printArgs, ha]; rfl⟩
          | cons d' ds =>
            obtain ⟨b, hb⟩ := ihd fun x hx => hd x (by simp [List.mem_cons.1 hx])
            exact ⟨a ++ commaP :: b, by rw [printArgs, ha]; simp only [Res.bind, hb]⟩
      rw [printTree.eq_def fc fv (.op o cs i)]
      dsimp only
      cases hpl : o.placement <;> rw [hpl] at hp <;> dsimp only at hp ⊢
      case «prefix» =>
        cases cs with
        | nil => simp at hp
        | cons c cs =>
          obtain ⟨a, ha⟩ := ih c (by simp) (hcs c (by simp)) false false
          obtain ⟨b, hb⟩ := ih c (by simp) (hcs c (by simp)) true (!l && r)
          dsimp only
          rw [if_neg hp.1]
          by_cases hw : prefixWraps o c
          · exact ⟨_, by rw [if_pos hw, ha]; rfl⟩
          · exact ⟨_, by rw [if_neg hw, hb]; rfl⟩
      case «postfix» =>
        cases cs with
        | nil => simp at hp
        | cons c cs =>
          obtain ⟨a, ha⟩ := ih c (by simp) (hcs c (by simp)) false false
          obtain ⟨b, hb⟩ := ih c (by simp) (hcs c (by simp)) (l && !r) true
          dsimp only
          by_cases hw : postfixWraps o c
          · exact ⟨_, by rw [if_pos hw, ha]; rfl⟩
          · exact ⟨_, by rw [if_neg hw, hb]; rfl⟩
      case «infix» =>
        match cs, hp with
        | c :: d :: cs, _ =>
          have hc : ∃ x, (if leftWraps o c then Res.bind (printTree fc fv c false false) fun x => .ok (wrapIf true x)
              else printTree fc fv c l true) = .ok x := by
            obtain ⟨a, ha⟩ := ih c (by simp) (hcs c (by simp)) false false
            obtain ⟨b, hb⟩ := ih c (by simp) (hcs c (by simp)) l true
            by_cases hw : leftWraps o c
            · exact ⟨_, by rw [if_pos hw, ha]; rfl⟩
            · exact ⟨_, by rw [if_neg hw, hb]⟩
          have hd : ∃ x, (if rightWraps o d then Res.bind (printTree fc fv d false false) fun x => .ok (wrapIf true x)
              else printTree fc fv d true r) = .ok x := by
            obtain ⟨a, ha⟩ := ih d (by simp) (hcs d (by simp)) false false
            obtain ⟨b, hb⟩ := ih d (by simp) (hcs d (by simp)) true r
            by_cases hw : rightWraps o d
            · exact ⟨_, by rw [if_pos hw, ha]; rfl⟩
            · exact ⟨_, by rw [if_neg hw, hb]⟩
          obtain ⟨x, hx⟩ := hc
          obtain ⟨y, hy⟩ := hd
          exact ⟨_, by dsimp only; rw [hx, hy]; rfl⟩
        | [], hp => simp at hp
        | [_], hp => simp at hp
      case function =>
        by_cases ha : o.arity = .fixed 0
        · exact ⟨_, by rw [if_neg (by simpa using ha)]⟩
        · obtain ⟨x, hx⟩ := hargs cs fun _ h => h
          exact ⟨_, by rw [if_pos ha, hx]; rfl⟩

/-- An expression of built-in operators can be printed. -/
theorem builtIn_tree_prints (fc : V → Str) (fv : Str → Str) (t : Tree V) (h : AllOps BuiltIn t) :
    ∀ l r, ∃ ps, printTree fc fv t l r = .ok ps :=
  tree_prints fc fv t (h.mono fun _ _ h => (builtIn_prints h).2)

theorem texts_of {P : Str → Prop} {fmt : V → Str} (hfmt : ∀ v, P (fmt v)) (t : Tree V)
    (ho : AllOps (fun o _ => P o.name) t) (hn : ∀ n ∈ t.names, P n) : Texts fmt P t := by
  induction t using Tree.induct with
  | hc v i => exact .const (hfmt v)
  | hv n x i => exact .var (hn n (by simp [Tree.names]))
  | ho o cs i ih =>
    cases ho with
    | op h1 h2 =>
      refine .op h1 fun c hc => ih c hc (h2 c hc) fun n h => hn n ?_
      rw [Tree.names]
      clear ih h2 hn h1
      induction cs with
      | nil => cases hc
      | cons d cs ih =>
        rw [Tree.namesList]
        rcases List.mem_cons.mp hc with rfl | hc
        · exact List.mem_append_left _ h
        · exact List.mem_append_right _ (ih hc)

theorem isWord_plain {n : Str} (h : isWord n = true) : Plain n := by
  rw [isWord, Bool.and_eq_true, List.all_eq_true] at h
  refine ⟨by simpa using h.1, fun c hc => ?_⟩
  have := h.2 c hc
  simp only [isLetter, Bool.or_eq_true, Bool.and_eq_true, decide_eq_true_eq, beq_iff_eq, Char.le_def, UInt32.le_iff_toNat_le] at this
  rcases this with (((⟨h1, h2⟩ | ⟨h1, h2⟩) | rfl) | rfl) | rfl
  · exact ⟨Nat.le_trans (by decide) h1, Nat.lt_of_le_of_lt h2 (by decide)⟩
  · exact ⟨Nat.le_trans (by decide) h1, Nat.lt_of_le_of_lt h2 (by decide)⟩
  · decide
  · decide
  · decide

end Verif.HelpProps
