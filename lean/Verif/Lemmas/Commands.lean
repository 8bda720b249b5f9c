import Verif.Spec.Commands
import Verif.Props.RuleParsing
import Verif.Props.StringUtil

/-! # Processing of input -/

namespace Verif
open CommandSpec
variable {V ε ρ σ : Type}

theorem inputOf_line {l : Str} (h : nul ∉ l) : inputOf (l ++ ['\n']) = .ok l := by
  have : cstr (l ++ ['\n']) = l ++ ['\n'] := by
    unfold cstr
    rw [List.takeWhile_append_of_pos]
    · simp
    · intro c hc
      simpa using fun e : c = '\x00' => h (by subst e; exact hc)
  unfold inputOf
  rw [this]
  simp

/-- The text of an input that was read. -/
theorem processInput_text (exec : σ → Str → Out (Fate σ)) (s : σ) {lines : List Str} {text : Str}
    (h : TextOf lines text) :
    processInput exec s text = processLines exec (lines.map fun l => l ++ ['\n']) s true := by
  unfold processInput
  rw [h.1, RuleFileProps.getlines_unlines _ fun l hl => (h.2 l hl).1]

theorem processLines_cons (exec : σ → Str → Out (Fate σ)) (s : σ) (res : Bool) {l : Str} (h : nul ∉ l)
    (ls : List Str) :
    processLines exec ((l ++ ['\n']) :: ls) s res =
      if l = quitCommand then .ok (.exited res)
      else if counts l then exec s l >>= fun r => match r with
        | .returned s' ok => processLines exec ls s' (res && ok)
        | .exited ok => .ok (.exited ok)
      else processLines exec ls s res := by
  rw [processLines, inputOf_line h]
  simp only [Out.of_ok, Out.bind_ok]
  split
  · rfl
  · by_cases hc : counts l
    · have : ¬ (l.isEmpty || l.head? == some '#') = true := by
        simp [counts] at hc ⊢
        exact hc
      rw [if_neg this, if_pos hc]
      rfl
    · have : (l.isEmpty || l.head? == some '#') = true := by
        simp only [counts] at hc
        cases h1 : l.isEmpty <;> cases h2 : l.head? == some '#' <;> simp_all
      rw [if_pos this, if_neg hc]

theorem processLines_returned (exec : σ → Str → Out (Fate σ)) (lines : List Str) (hn : ∀ l ∈ lines, nul ∉ l) (s t : σ)
    (res r : Bool) :
    processLines exec (lines.map fun l => l ++ ['\n']) s res = .ok (.returned t r) ↔
      quitCommand ∉ lines ∧ ∃ bs, Runs exec s (lines.filter counts) t bs ∧ r = (res && bs.all id) := by
  induction lines generalizing s res with
  | nil =>
    simp only [List.map_nil, processLines, Out.ok.injEq, Fate.returned.injEq, List.not_mem_nil, not_false_eq_true,
      true_and, List.filter_nil]
    constructor
    · rintro ⟨rfl, rfl⟩
      exact ⟨[], .nil _, by simp⟩
    · rintro ⟨bs, hr, h⟩
      cases hr
      simpa using h.symm
  | cons l ls ih =>
    rw [List.map_cons, processLines_cons exec s res (hn l (by simp))]
    have ih := ih (fun l hl => hn l (by simp [hl]))
    split
    · rename_i hq
      simp [hq]
    · rename_i hq
      split
      · rename_i hc
        rw [Out.bind_eq_ok]
        constructor
        · rintro ⟨f, h1, h2⟩
          cases f with
          | exited => cases h2
          | returned s' ok =>
            obtain ⟨h3, bs, h4, h5⟩ := (ih _ _).1 h2
            refine ⟨by simp [h3, Ne.symm hq], ok :: bs, ?_, by simp [h5, Bool.and_assoc]⟩
            rw [List.filter_cons_of_pos hc]
            exact .cons h1 h4
        · rintro ⟨h3, bs, h4, h5⟩
          rw [List.filter_cons_of_pos hc] at h4
          cases h4 with
          | cons h1 h4 =>
            refine ⟨_, h1, (ih _ _).2 ⟨fun h => h3 (by simp [h]), _, h4, ?_⟩⟩
            simpa [Bool.and_assoc] using h5
      · rename_i hc
        rw [ih, List.filter_cons_of_neg hc]
        simp [Ne.symm hq]

theorem Runs.append {exec : σ → Str → Out (Fate σ)} {s t u : σ} {as bs : List Str} {x y : List Bool}
    (h : Runs exec s as t x) (h' : Runs exec t bs u y) : Runs exec s (as ++ bs) u (x ++ y) := by
  induction h with
  | nil => exact h'
  | cons h _ ih => exact .cons h (ih h')

theorem Runs.split {exec : σ → Str → Out (Fate σ)} {s u : σ} {as bs : List Str} {z : List Bool}
    (h : Runs exec s (as ++ bs) u z) : ∃ t x y, Runs exec s as t x ∧ Runs exec t bs u y ∧ z = x ++ y := by
  induction as generalizing s z with
  | nil => exact ⟨s, [], z, .nil _, h, rfl⟩
  | cons a as ih =>
    cases h with
    | cons h1 h2 =>
      obtain ⟨t, x, y, h3, h4, rfl⟩ := ih h2
      exact ⟨t, _, y, .cons h1 h3, h4, rfl⟩

/-- The first place in a list of lines where something other than a return happens. -/
def StopsAt (exec : σ → Str → Out (Fate σ)) (s : σ) (lines : List Str) (x : Out (Fate σ)) : Prop :=
  ∃ a i b t bs, lines = a ++ i :: b ∧ quitCommand ∉ a ∧ i ≠ quitCommand ∧ counts i = true ∧
    Runs exec s (a.filter counts) t bs ∧ exec t i = x

theorem StopsAt.nil {exec : σ → Str → Out (Fate σ)} {s : σ} {x : Out (Fate σ)} : ¬ StopsAt exec s [] x := by
  rintro ⟨a, i, b, _, _, h, _⟩
  simp at h

theorem StopsAt.quit {exec : σ → Str → Out (Fate σ)} {s : σ} {ls : List Str} {x : Out (Fate σ)} :
    ¬ StopsAt exec s (quitCommand :: ls) x := by
  rintro ⟨a, i, b, _, _, h, h1, h2, _⟩
  cases a with
  | nil => simp at h; exact h2 h.1.symm
  | cons c a => simp at h; exact h1 (by simp [← h.1])

theorem StopsAt.skip {exec : σ → Str → Out (Fate σ)} {s : σ} {l : Str} {ls : List Str} {x : Out (Fate σ)}
    (hq : l ≠ quitCommand) (hc : ¬ counts l = true) : StopsAt exec s (l :: ls) x ↔ StopsAt exec s ls x := by
  constructor
  · rintro ⟨a, i, b, t, bs, h, h1, h2, h3, h4, h5⟩
    cases a with
    | nil => simp at h; exact absurd (h.1 ▸ h3) hc
    | cons c a =>
      simp only [List.cons_append, List.cons.injEq] at h
      obtain ⟨rfl, rfl⟩ := h
      rw [List.filter_cons_of_neg hc] at h4
      exact ⟨a, i, b, t, bs, rfl, fun h => h1 (by simp [h]), h2, h3, h4, h5⟩
  · rintro ⟨a, i, b, t, bs, rfl, h1, h2, h3, h4, h5⟩
    exact ⟨l :: a, i, b, t, bs, rfl, by simp [h1, Ne.symm hq], h2, h3, by rw [List.filter_cons_of_neg hc]; exact h4, h5⟩

theorem StopsAt.step {exec : σ → Str → Out (Fate σ)} {s : σ} {l : Str} {ls : List Str} {x : Out (Fate σ)}
    (hq : l ≠ quitCommand) (hc : counts l = true) :
    StopsAt exec s (l :: ls) x ↔ exec s l = x ∨ ∃ s' ok, exec s l = .ok (.returned s' ok) ∧ StopsAt exec s' ls x := by
  constructor
  · rintro ⟨a, i, b, t, bs, h, h1, h2, h3, h4, h5⟩
    cases a with
    | nil =>
      simp at h h4
      cases h4
      left
      rw [h.1]
      exact h5
    | cons c a =>
      simp only [List.cons_append, List.cons.injEq] at h
      obtain ⟨rfl, rfl⟩ := h
      rw [List.filter_cons_of_pos hc] at h4
      cases h4 with
      | cons h6 h7 => exact .inr ⟨_, _, h6, a, i, b, t, _, rfl, fun h => h1 (by simp [h]), h2, h3, h7, h5⟩
  · rintro (h | ⟨s', ok, h, a, i, b, t, bs, rfl, h1, h2, h3, h4, h5⟩)
    · exact ⟨[], l, ls, s, [], rfl, by simp, hq, hc, .nil _, h⟩
    · exact ⟨l :: a, i, b, t, ok :: bs, rfl, by simp [h1, Ne.symm hq], h2, h3,
        by rw [List.filter_cons_of_pos hc]; exact .cons h h4, h5⟩

theorem processLines_exited (exec : σ → Str → Out (Fate σ)) (lines : List Str) (hn : ∀ l ∈ lines, nul ∉ l) (s : σ)
    (res r : Bool) :
    processLines exec (lines.map fun l => l ++ ['\n']) s res = .ok (.exited r) ↔
      (∃ a b t bs, lines = a ++ quitCommand :: b ∧ quitCommand ∉ a ∧ Runs exec s (a.filter counts) t bs ∧
        r = (res && bs.all id)) ∨ StopsAt exec s lines (.ok (.exited r)) := by
  induction lines generalizing s res with
  | nil =>
    simp only [List.map_nil, processLines, StopsAt.nil, or_false]
    constructor
    · intro h; cases h
    · rintro ⟨a, b, _, _, h, _⟩; simp at h
  | cons l ls ih =>
    rw [List.map_cons, processLines_cons exec s res (hn l (by simp))]
    have ih := ih (fun l hl => hn l (by simp [hl]))
    split
    · rename_i hq
      subst hq
      simp only [StopsAt.quit, or_false, Out.ok.injEq, Fate.exited.injEq]
      constructor
      · rintro rfl
        exact ⟨[], ls, s, [], rfl, by simp, .nil _, by simp⟩
      · rintro ⟨a, b, t, bs, h, h1, h2, h3⟩
        cases a with
        | nil => cases h2; simpa using h3.symm
        | cons c a => simp at h; exact (h1 (by simp [← h.1])).elim
    · rename_i hq
      split
      · rename_i hc
        rw [StopsAt.step hq hc, Out.bind_eq_ok]
        constructor
        · rintro ⟨f, h1, h2⟩
          cases f with
          | exited ok => simp at h2; subst h2; exact .inr (.inl h1)
          | returned s' ok =>
            rcases (ih _ _).1 h2 with ⟨a, b, t, bs, rfl, h3, h4, h5⟩ | h3
            · refine .inl ⟨l :: a, b, t, ok :: bs, rfl, by simp [h3, Ne.symm hq], ?_, by simp [h5, Bool.and_assoc]⟩
              rw [List.filter_cons_of_pos hc]
              exact .cons h1 h4
            · exact .inr (.inr ⟨s', ok, h1, h3⟩)
        · rintro (⟨a, b, t, bs, h, h3, h4, h5⟩ | h | ⟨s', ok, h, h'⟩)
          · cases a with
            | nil => simp at h; exact (hq h.1).elim
            | cons c a =>
              simp only [List.cons_append, List.cons.injEq] at h
              obtain ⟨rfl, rfl⟩ := h
              rw [List.filter_cons_of_pos hc] at h4
              cases h4 with
              | cons h6 h7 =>
                exact ⟨_, h6, (ih _ _).2 (.inl ⟨a, b, t, _, rfl, fun h => h3 (by simp [h]), h7,
                  by simpa [Bool.and_assoc] using h5⟩)⟩
          · exact ⟨_, h, rfl⟩
          · exact ⟨_, h, (ih _ _).2 (.inr h')⟩
      · rename_i hc
        rw [ih, StopsAt.skip hq hc]
        refine or_congr_left ?_
        constructor
        · rintro ⟨a, b, t, bs, rfl, h3, h4, h5⟩
          exact ⟨l :: a, b, t, bs, rfl, by simp [h3, Ne.symm hq], by rw [List.filter_cons_of_neg hc]; exact h4, h5⟩
        · rintro ⟨a, b, t, bs, h, h3, h4, h5⟩
          cases a with
          | nil => simp at h; exact (hq h.1).elim
          | cons c a =>
            simp only [List.cons_append, List.cons.injEq] at h
            obtain ⟨rfl, rfl⟩ := h
            rw [List.filter_cons_of_neg hc] at h4
            exact ⟨a, b, t, bs, rfl, fun h => h3 (by simp [h]), h4, h5⟩

/-- An outcome other than a normal end, of any type. -/
def Out.fail {α : Type} (k : Out Empty) : Out α := k.bind fun e => e.elim

theorem Out.fail_ne {α : Type} (k : Out Empty) (a : α) : Out.fail k ≠ Out.ok a := by
  cases k with
  | ok e => exact e.elim
  | hang => intro h; cases h
  | defect => intro h; cases h
  | ub => intro h; cases h

theorem Out.bind_eq_fail {α β : Type} (k : Out Empty) (x : Out α) (f : α → Out β) :
    (x >>= f) = Out.fail k ↔ x = Out.fail k ∨ ∃ a, x = .ok a ∧ f a = Out.fail k := by
  cases x with
  | ok a =>
    simp only [Out.bind_ok, Out.ok.injEq, exists_eq_left']
    constructor
    · exact .inr
    · rintro (h | h)
      · exact (Out.fail_ne k a h.symm).elim
      · exact h
  | hang => cases k with
    | ok e => exact e.elim
    | _ => simp [Out.fail, Out.bind]
  | defect => cases k with
    | ok e => exact e.elim
    | _ => simp [Out.fail, Out.bind]
  | ub => cases k with
    | ok e => exact e.elim
    | _ => simp [Out.fail, Out.bind]

theorem processLines_fail (exec : σ → Str → Out (Fate σ)) (k : Out Empty) (lines : List Str) (hn : ∀ l ∈ lines, nul ∉ l)
    (s : σ) (res : Bool) :
    processLines exec (lines.map fun l => l ++ ['\n']) s res = Out.fail k ↔ StopsAt exec s lines (Out.fail k) := by
  induction lines generalizing s res with
  | nil =>
    simp only [List.map_nil, processLines, StopsAt.nil, iff_false]
    exact fun h => Out.fail_ne k _ h.symm
  | cons l ls ih =>
    rw [List.map_cons, processLines_cons exec s res (hn l (by simp))]
    have ih := ih (fun l hl => hn l (by simp [hl]))
    split
    · rename_i hq
      subst hq
      simp only [StopsAt.quit, iff_false]
      exact fun h => Out.fail_ne k _ h.symm
    · rename_i hq
      split
      · rename_i hc
        rw [StopsAt.step hq hc, Out.bind_eq_fail]
        refine or_congr_right ?_
        constructor
        · rintro ⟨f, h1, h2⟩
          cases f with
          | exited ok => exact (Out.fail_ne k _ h2.symm).elim
          | returned s' ok => exact ⟨s', ok, h1, (ih _ _).1 h2⟩
        · rintro ⟨s', ok, h1, h2⟩
          exact ⟨_, h1, (ih _ _).2 h2⟩
      · rename_i hc
        rw [ih, StopsAt.skip hq hc]

/-! ## Nesting -/

theorem processLines_mono {exec exec' : σ → Str → Out (Fate σ)}
    (h : ∀ s i, exec s i ≠ .hang → exec' s i = exec s i) (lines : List Str) (s : σ) (res : Bool)
    (hn : processLines exec lines s res ≠ .hang) :
    processLines exec' lines s res = processLines exec lines s res := by
  induction lines generalizing s res with
  | nil => rfl
  | cons l ls ih =>
    rw [processLines] at hn ⊢
    rw [processLines]
    cases hi : inputOf l with
    | ok input =>
      rw [hi] at hn
      simp only [Out.of_ok, Out.bind_ok] at hn ⊢
      split
      · rfl
      · rename_i hq
        rw [if_neg hq] at hn
        split
        · rename_i hc
          rw [if_pos hc] at hn
          exact ih _ _ hn
        · rename_i hc
          rw [if_neg hc] at hn
          have he : exec s input ≠ .hang := by
            intro he
            rw [he] at hn
            exact hn rfl
          rw [h _ _ he]
          cases hx : exec s input with
          | ok f =>
            rw [hx] at hn
            simp only [Out.bind_ok] at hn ⊢
            cases f with
            | returned s' ok => exact ih _ _ hn
            | exited => rfl
          | hang => rfl
          | defect => rfl
          | ub => rfl
    | defect => rfl
    | ub => rfl

theorem execCommand_succ (K : Program V ε ρ) (d : Nat) (s : Session V ρ) (i : Str)
    (h : execCommand K d s i ≠ .hang) : execCommand K (d + 1) s i = execCommand K d s i := by
  induction d generalizing s i with
  | zero => exact (h rfl).elim
  | succ d ih =>
    rw [execCommand] at h ⊢
    rw [execCommand]
    cases hc : firstCommand i commandTable with
    | none => rfl
    | some c =>
      rw [hc] at h
      simp only at h ⊢
      cases c with
      | load =>
        simp only [runCommand, loadExec] at h ⊢
        split
        · rfl
        · rename_i hb
          rw [if_neg hb] at h
          cases hf : K.files (i.drop loadCommand.length) with
          | none => rfl
          | some text =>
            rw [hf] at h
            simp only at h ⊢
            have hp : processInput (execCommand K d) s text ≠ .hang := by
              intro he
              rw [he] at h
              exact h rfl
            unfold processInput at hp ⊢
            rw [processLines_mono ih _ _ _ hp]
      | _ => rfl

theorem execCommand_mono (K : Program V ε ρ) {d d' : Nat} (hd : d ≤ d') (s : Session V ρ) (i : Str)
    (h : execCommand K d s i ≠ .hang) : execCommand K d' s i = execCommand K d s i := by
  induction hd with
  | refl => rfl
  | step _ ih => rw [execCommand_succ K _ s i (by rw [ih]; exact h), ih]

end Verif
