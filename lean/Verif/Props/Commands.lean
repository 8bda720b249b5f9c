import Verif.Lemmas.Commands
import Verif.Lemmas.Table
import Verif.Props.Session
import Verif.Props.StringUtil

/-!
# Properties of the dispatch and of the processing of input (C47, C48, C67, C68)
-/

namespace Verif.CommandProps
open CommandSpec SessionProps
variable {V ε ρ σ : Type}

/-! ## C47 -/

theorem prefix_iff {p s : Str} : p <+: s ↔ ∃ r, s = p ++ r :=
  ⟨fun ⟨r, h⟩ => ⟨r, h.symm⟩, fun ⟨r, h⟩ => ⟨r, h.symm⟩⟩

theorem strstr_eq (s : Str) : (strstr s "=".toList).isSome = true ↔ '=' ∈ s := by
  cases h : strstr s "=".toList with
  | none =>
    have := strstr_none h
    simp only [Option.isSome_none, Bool.false_eq_true, false_iff]
    intro hm
    obtain ⟨a, b, rfl⟩ := List.append_of_mem hm
    exact this a b (by simp)
  | some k =>
    simp only [Option.isSome_some, true_iff]
    rw [(strstr_some h).1.1]
    simp

theorem check_looks (input : Str) :
    (helpCheck input = true ↔ Looks input .help) ∧ (tableCheck input = true ↔ Looks input .table) ∧
    (definitionCheck input = true ↔ Looks input .definition) ∧ (clearCheck input = true ↔ Looks input .clear) ∧
    (loadCheck input = true ↔ Looks input .load) := by
  refine ⟨?_, ?_, ?_, ?_, ?_⟩
  · simp [helpCheck, Looks, or_assoc]
  · rw [tableCheck, StringProps.C55_begins]; exact prefix_iff.symm
  · exact strstr_eq input
  · rw [clearCheck, StringProps.C55_begins]; exact prefix_iff.symm
  · rw [loadCheck, StringProps.C55_begins]; exact prefix_iff.symm

/-- **C47.** Every input is handled by exactly one command: the first in the order help, table, definition,
clear, load, evaluation that it looks like. -/
theorem C47_exact (input : Str) (c : Command) :
    firstCommand input commandTable = some c ↔ Looks input c ∧ ∀ d ∈ before c, ¬ Looks input d := by
  obtain ⟨h1, h2, h3, h4, h5⟩ := check_looks input
  have h6 : Looks input .evaluation := trivial
  simp only [firstCommand, commandTable]
  generalize helpCheck input = e1 at h1 ⊢
  generalize tableCheck input = e2 at h2 ⊢
  generalize definitionCheck input = e3 at h3 ⊢
  generalize clearCheck input = e4 at h4 ⊢
  generalize loadCheck input = e5 at h5 ⊢
  cases e1
  · cases e2
    · cases e3
      · cases e4
        · cases e5 <;> cases c <;> simp_all [before]
        · cases c <;> simp_all [before]
      · cases c <;> simp_all [before]
    · cases c <;> simp_all [before]
  · cases c <;> simp_all [before]

/-- **C47**, there always is one, and it is executed. -/
theorem C47_total (input : Str) :
    ∃ c, firstCommand input commandTable = some c ∧
      ∀ (K : Program V ε ρ) (d : Nat) (s : Session V ρ),
        execCommand K (d + 1) s input = runCommand K (execCommand K d) s input c := by
  have : ∃ c, firstCommand input commandTable = some c := by
    simp only [firstCommand, commandTable]
    split
    · exact ⟨_, rfl⟩
    · split
      · exact ⟨_, rfl⟩
      · split
        · exact ⟨_, rfl⟩
        · split
          · exact ⟨_, rfl⟩
          · split <;> exact ⟨_, rfl⟩
  obtain ⟨c, hc⟩ := this
  exact ⟨c, hc, fun K d s => by rw [execCommand, hc]⟩

example : firstCommand "table x;1;2;1 fold x=y;0".toList commandTable = some .table ∧
    firstCommand "license".toList commandTable = some .help ∧
    firstCommand "help operators ".toList commandTable = some .evaluation := by decide +kernel

/-- **C47**, as documented, where it holds: an input of a documented form is handled by that command, and
one of no such form is evaluated.

Missing: `load` and `clear` with an equals sign (`C47_load_equals`), and inputs that only start
with `clear` (`C47_clear_glued`). -/
theorem C47_documented_partial (input : Str) :
    (∀ c, Documented input c → ('=' ∈ input → c = .table ∨ c = .definition ∧ ¬ "table ".toList <+: input) →
      firstCommand input commandTable = some c) ∧
    ((∀ c, ¬ Documented input c) → ¬ "clear".toList <+: input →
      firstCommand input commandTable = some .evaluation) := by
  have hh : Looks input .help → '=' ∉ input ∧ ¬ "table ".toList <+: input ∧ ¬ "clear".toList <+: input ∧
      ¬ "load ".toList <+: input := by
    intro h
    simp only [Looks, List.mem_cons, List.not_mem_nil, or_false] at h
    rcases h with rfl | rfl | rfl <;> refine ⟨by decide, ?_, ?_, ?_⟩ <;> rw [← List.isPrefixOf_iff_prefix] <;> decide
  have htc : "table ".toList <+: input → ¬ "clear".toList <+: input ∧ ¬ "load ".toList <+: input := by
    rintro ⟨r, rfl⟩
    refine ⟨?_, ?_⟩ <;> rintro ⟨r', h⟩ <;> simp at h
  have hcl : "clear".toList <+: input → ¬ "load ".toList <+: input := by
    rintro ⟨r, rfl⟩ ⟨r', h⟩
    simp at h
  refine ⟨?_, ?_⟩
  · intro c hd he
    rw [C47_exact]
    cases hd with
    | help => exact ⟨by simp [Looks], by simp [before]⟩
    | operators => exact ⟨by simp [Looks], by simp [before]⟩
    | license => exact ⟨by simp [Looks], by simp [before]⟩
    | table r =>
      have h1 : "table ".toList <+: "table ".toList ++ r := ⟨r, rfl⟩
      refine ⟨h1, ?_⟩
      simp only [before, List.mem_singleton, forall_eq]
      exact fun h => (hh h).2.1 h1
    | definition l r =>
      have h1 : '=' ∈ l ++ '=' :: r := by simp
      refine ⟨h1, ?_⟩
      rcases he h1 with h | ⟨-, h⟩
      · cases h
      · simp only [before, List.mem_cons, List.not_mem_nil, or_false, forall_eq_or_imp, forall_eq]
        exact ⟨fun h => (hh h).1 h1, h⟩
    | clear =>
      refine ⟨⟨[], rfl⟩, ?_⟩
      simp only [before, List.mem_cons, List.not_mem_nil, or_false, forall_eq_or_imp, forall_eq]
      exact ⟨by simp [Looks], fun h => (htc h).1 ⟨[], rfl⟩, by simp [Looks]⟩
    | clearOne f =>
      have h1 : "clear".toList <+: "clear ".toList ++ f := ⟨' ' :: f, rfl⟩
      refine ⟨h1, ?_⟩
      simp only [before, List.mem_cons, List.not_mem_nil, or_false, forall_eq_or_imp, forall_eq]
      refine ⟨fun h => (hh h).2.2.1 h1, fun h => (htc h).1 h1, fun h => ?_⟩
      rcases he h with h | ⟨h, -⟩ <;> cases h
    | load p =>
      have h1 : "load ".toList <+: "load ".toList ++ p := ⟨p, rfl⟩
      refine ⟨h1, ?_⟩
      simp only [before, List.mem_cons, List.not_mem_nil, or_false, forall_eq_or_imp, forall_eq]
      refine ⟨fun h => (hh h).2.2.2 h1, fun h => (htc h).2 h1, fun h => ?_, fun h => hcl h h1⟩
      rcases he h with h | ⟨h, -⟩ <;> cases h
  · intro hn hc
    rw [C47_exact]
    refine ⟨trivial, ?_⟩
    simp only [before, List.mem_cons, List.not_mem_nil, or_false, forall_eq_or_imp, forall_eq]
    refine ⟨?_, ?_, ?_, hc, ?_⟩
    · intro h
      simp only [Looks, List.mem_cons, List.not_mem_nil, or_false] at h
      rcases h with rfl | rfl | rfl
      · exact hn _ .help
      · exact hn _ .operators
      · exact hn _ .license
    · rintro ⟨r, rfl⟩
      exact hn _ (.table r)
    · intro h
      obtain ⟨a, b, rfl⟩ := List.append_of_mem h
      exact hn _ (.definition a b)
    · rintro ⟨r, rfl⟩
      exact hn _ (.load r)

/-- **C47** fails: a file whose name contains an equals sign cannot be loaded, the input is taken as a
definition. -/
theorem C47_load_equals (p : Str) (h : '=' ∈ p) :
    Documented ("load ".toList ++ p) .load ∧ firstCommand ("load ".toList ++ p) commandTable = some .definition := by
  refine ⟨.load p, (C47_exact _ _).2 ⟨by simp [Looks, h], ?_⟩⟩
  simp only [before, List.mem_cons, List.not_mem_nil, or_false, forall_eq_or_imp, forall_eq]
  refine ⟨?_, ?_⟩
  · intro hl
    simp [Looks] at hl
  · rintro ⟨r, hr⟩
    simp at hr

/-- **C47** fails: the variable `clearance` is of no documented form but is not evaluated. -/
theorem C47_clear_glued : (∀ c, ¬ Documented "clearance".toList c) ∧
    firstCommand "clearance".toList commandTable = some .clear := by
  refine ⟨?_, by decide +kernel⟩
  intro c h
  generalize hi : "clearance".toList = i at h
  cases h with
  | help => exact absurd hi (by decide)
  | operators => exact absurd hi (by decide)
  | license => exact absurd hi (by decide)
  | table r => simp at hi
  | definition l r =>
    have : '=' ∈ "clearance".toList := by rw [hi]; simp
    exact absurd this (by decide)
  | clear => exact absurd hi (by decide)
  | clearOne f => simp at hi
  | load p => simp at hi

/-! ## C48 -/

/-- **C48**, where it holds: for a text of complete lines without NUL characters, `process_input` returns
exactly if there is no line `quit`; then all lines that are not blank or comments have been executed once and
in order, and the result is that all of them succeeded.

Missing: a last line without newline (`C48_no_newline`), NUL characters (`C48_nul`). -/
theorem C48_returns_partial (exec : σ → Str → Out (Fate σ)) (lines : List Str) (text : Str) (h : TextOf lines text)
    (s t : σ) (r : Bool) :
    processInput exec s text = .ok (.returned t r) ↔
      "quit".toList ∉ lines ∧ ∃ bs, Runs exec s (lines.filter counts) t bs ∧ (r = true ↔ ∀ b ∈ bs, b = true) := by
  rw [processInput_text exec s h, processLines_returned exec lines (fun l hl => (h.2 l hl).2)]
  refine and_congr_right fun _ => exists_congr fun bs => and_congr_right fun _ => ?_
  rw [Bool.true_and]
  constructor
  · rintro rfl; simp
  · intro hb
    rw [Bool.eq_iff_iff, hb]
    simp

/-- **C48**, the program ends: at the first line `quit`, the status telling whether all commands before it
succeeded; or a command before it (one that loads a file) ends it. -/
theorem C48_exits_partial (exec : σ → Str → Out (Fate σ)) (lines : List Str) (text : Str) (h : TextOf lines text)
    (s : σ) (r : Bool) :
    processInput exec s text = .ok (.exited r) ↔
      (∃ a b t bs, lines = a ++ "quit".toList :: b ∧ "quit".toList ∉ a ∧ Runs exec s (a.filter counts) t bs ∧
        (r = true ↔ ∀ b ∈ bs, b = true)) ∨
      ∃ a i b t bs, lines = a ++ i :: b ∧ "quit".toList ∉ a ∧ i ≠ "quit".toList ∧ counts i = true ∧
        Runs exec s (a.filter counts) t bs ∧ exec t i = .ok (.exited r) := by
  rw [processInput_text exec s h, processLines_exited exec lines (fun l hl => (h.2 l hl).2)]
  refine or_congr ?_ Iff.rfl
  refine exists_congr fun a => exists_congr fun b => exists_congr fun t => exists_congr fun bs =>
    and_congr_right fun _ => and_congr_right fun _ => and_congr_right fun _ => ?_
  rw [Bool.true_and]
  constructor
  · rintro rfl; simp
  · intro hb
    rw [Bool.eq_iff_iff, hb]
    simp

/-- **C48**, crashes and endless loops: only if a command that is to be executed crashes or does not end. -/
theorem C48_fails_partial (exec : σ → Str → Out (Fate σ)) (lines : List Str) (text : Str) (h : TextOf lines text)
    (s : σ) (k : Out Empty) :
    processInput exec s text = Out.fail k ↔
      ∃ a i b t bs, lines = a ++ i :: b ∧ "quit".toList ∉ a ∧ i ≠ "quit".toList ∧ counts i = true ∧
        Runs exec s (a.filter counts) t bs ∧ exec t i = Out.fail k := by
  rw [processInput_text exec s h, processLines_fail exec k lines (fun l hl => (h.2 l hl).2)]
  rfl

/-- A program that counts and rejects the command `bad`. -/
def counter (n : Nat) (i : Str) : Out (Fate Nat) := .ok (.returned (n + 1) (i ≠ "bad".toList))

example : TextOf ["# a".toList, "x".toList, [], "bad".toList, "quit".toList, "y".toList] "# a\nx\n\nbad\nquit\ny\n".toList ∧
    processInput counter 0 "# a\nx\n\nbad\nquit\ny\n".toList = .ok (.exited false) ∧
    processInput counter 0 "# a\nx\n\ny\n".toList = .ok (.returned 2 true) := by
  refine ⟨⟨by decide +kernel, by decide +kernel⟩, by decide +kernel, by decide +kernel⟩

/-- **C48** fails: the last character of a last line without newline is lost. -/
theorem C48_no_newline (exec : σ → Str → Out (Fate σ)) (s : σ) (l : Str) (c : Char) (h : '\n' ∉ l ++ [c])
    (h' : nul ∉ l ++ [c]) :
    processInput exec s (l ++ [c]) = processInput exec s (l ++ ['\n']) := by
  have g : ∀ (l : Str) (c : Char), '\n' ∉ l → getlines (l ++ [c]) = [l ++ [c]] := by
    intro l c hl
    induction l with
    | nil => simp [getlines]
    | cons d l ih =>
      simp only [List.mem_cons, not_or] at hl
      rw [List.cons_append, getlines, if_neg (Ne.symm hl.1), ih hl.2]
  simp only [List.mem_append, not_or, List.mem_singleton] at h h'
  have e : ∀ c, c ≠ nul → inputOf (l ++ [c]) = .ok l := by
    intro c hc
    have : cstr (l ++ [c]) = l ++ [c] := by
      unfold cstr
      rw [List.takeWhile_append_of_pos]
      · have : (c != '\x00') = true := by simpa using hc
        simp [this]
      · intro d hd
        simpa using fun e : d = '\x00' => h'.1 (by subst e; exact hd)
    unfold inputOf
    rw [this]
    simp
  unfold processInput
  rw [g _ _ h.1, g _ _ h.1]
  simp only [processLines, e c (Ne.symm h'.2), e '\n' (by decide)]

/-- **C48** fails: a line that starts with a NUL character makes the program write in front of its buffer. -/
theorem C48_nul (exec : σ → Str → Out (Fate σ)) (s : σ) (text : Str) :
    processInput exec s (nul :: text) = .ub := by
  have : ∃ l ls, getlines (nul :: text) = (nul :: l) :: ls := by
    rw [getlines, if_neg (by decide)]
    cases getlines text with
    | nil => exact ⟨_, _, rfl⟩
    | cons l ls => exact ⟨_, _, rfl⟩
  obtain ⟨l, ls, h⟩ := this
  unfold processInput
  rw [h, processLines]
  have : inputOf (nul :: l) = .ub := by simp [inputOf, cstr]
  rw [this]
  rfl

/-! ## C67: loading files -/

/-- The command that a path makes: no other command, and no loading of rules. -/
theorem load_first (p : Str) (h : '=' ∉ p) : firstCommand ("load ".toList ++ p) commandTable = some .load := by
  refine (C47_documented_partial _).1 _ (.load p) ?_
  intro he
  simp [h] at he

theorem load_plain (p : Str) (h : ¬ "simplification ".toList <+: p) : beginsWith loadSimpCommand ("load ".toList ++ p) = false := by
  rw [← Bool.not_eq_true, StringProps.C55_begins]
  rintro ⟨r, hr⟩
  refine h ⟨r, ?_⟩
  have : loadSimpCommand = "load ".toList ++ "simplification ".toList := by decide
  rw [this, List.append_assoc] at hr
  exact (List.append_cancel_left hr).symm

theorem load_exec (K : Program V ε ρ) (d : Nat) (s : Session V ρ) (p text : Str) (he : '=' ∉ p)
    (hp : ¬ "simplification ".toList <+: p) (hf : K.files p = some text) :
    execCommand K (d + 1) s ("load ".toList ++ p) =
      processInput (execCommand K d) s text >>= fun r => .ok (loaded r) := by
  rw [execCommand, load_first p he]
  simp only [runCommand, loadExec, load_plain p hp]
  have : ("load ".toList ++ p).drop loadCommand.length = p := rfl
  rw [this, hf]
  rfl

/-- **C67.** Loading a file of complete lines leads to the same state as typing in its contents: the command
returns exactly if all its lines do, in the state they lead to.  It always counts as successful. -/
theorem C67_load (K : Program V ε ρ) (d : Nat) (s t : Session V ρ) (p text : Str) (lines : List Str) (he : '=' ∉ p)
    (hp : ¬ "simplification ".toList <+: p) (hf : K.files p = some text) (ht : TextOf lines text) (r : Bool) :
    execCommand K (d + 1) s ("load ".toList ++ p) = .ok (.returned t r) ↔
      r = true ∧ "quit".toList ∉ lines ∧ ∃ bs, Runs (execCommand K d) s (lines.filter counts) t bs := by
  rw [load_exec K d s p text he hp hf, Out.bind_eq_ok]
  constructor
  · rintro ⟨f, h1, h2⟩
    cases f with
    | exited => simp [loaded] at h2
    | returned s' b =>
      simp only [loaded, Out.ok.injEq, Fate.returned.injEq] at h2
      obtain ⟨rfl, rfl⟩ := h2
      obtain ⟨h3, bs, h4, -⟩ := (C48_returns_partial _ _ _ ht _ _ _).1 h1
      exact ⟨rfl, h3, bs, h4⟩
  · rintro ⟨rfl, h3, bs, h4⟩
    refine ⟨.returned t (bs.all id), (C48_returns_partial _ _ _ ht _ _ _).2 ⟨h3, bs, h4, by simp⟩, rfl⟩

/-- More nesting does not change a run that is not stopped by the bound. -/
theorem _root_.Verif.CommandSpec.Runs.succ {K : Program V ε ρ} {d : Nat} {s t : Session V ρ} {is : List Str} {bs : List Bool}
    (h : Runs (execCommand K d) s is t bs) : Runs (execCommand K (d + 1)) s is t bs := by
  induction h with
  | nil => exact .nil _
  | cons h _ ih =>
    refine .cons ?_ ih
    rw [execCommand_succ K d _ _ (by rw [h]; intro hx; cases hx), h]

/-- **C67**, typed in: a text with the line `load p` is processed with the same final state as the text with the
lines of the file in its place. -/
theorem C67_inlined (K : Program V ε ρ) (d : Nat) (s u : Session V ρ) (p text : Str) (lines A B : List Str)
    (he : '=' ∉ p) (hp : ¬ "simplification ".toList <+: p) (hf : K.files p = some text)
    (ht : TextOf lines text) (tA tB : Str)
    (hA : TextOf (A ++ ("load ".toList ++ p) :: B) tA) (hB : TextOf (A ++ lines ++ B) tB)
    (h : ∃ r, processInput (execCommand K (d + 1)) s tA = .ok (.returned u r)) :
    ∃ r, processInput (execCommand K (d + 1)) s tB = .ok (.returned u r) := by
  obtain ⟨r, h⟩ := h
  obtain ⟨h1, bs, h2, -⟩ := (C48_returns_partial _ _ _ hA _ _ _).1 h
  have hc : counts ("load ".toList ++ p) = true := by simp [counts]
  rw [List.filter_append, List.filter_cons_of_pos hc] at h2
  obtain ⟨t, x, y, h3, h4, rfl⟩ := Runs.split h2
  cases h4 with
  | @cons _ _ s1 _ _ _ ys h5 h6 =>
    obtain ⟨-, h7, bs', h8⟩ := (C67_load K d _ _ p text lines he hp hf ht _).1 h5
    have h8' := h8.succ
    refine ⟨(x ++ bs' ++ ys).all id, (C48_returns_partial _ _ _ hB _ _ _).2 ⟨?_, x ++ bs' ++ ys, ?_, by
      simp only [List.all_eq_true, id]⟩⟩
    · simp only [List.mem_append, not_or, List.mem_cons] at h1 ⊢
      exact ⟨⟨h1.1, h7⟩, h1.2.2⟩
    · rw [List.filter_append, List.filter_append]
      exact Runs.append (Runs.append h3 h8') h6

/-- **C67**, `quit` in a file ends the program, with the status of that file alone. -/
theorem C67_quit (K : Program V ε ρ) (d : Nat) (s t : Session V ρ) (p text : Str) (a b : List Str) (bs : List Bool)
    (he : '=' ∉ p) (hp : ¬ "simplification ".toList <+: p) (hf : K.files p = some text)
    (ht : TextOf (a ++ "quit".toList :: b) text) (hq : "quit".toList ∉ a)
    (hr : Runs (execCommand K d) s (a.filter counts) t bs) :
    execCommand K (d + 1) s ("load ".toList ++ p) = .ok (.exited (bs.all id)) := by
  rw [load_exec K d s p text he hp hf,
    (C48_exits_partial _ _ _ ht _ (bs.all id)).2 (.inl ⟨a, b, t, bs, rfl, hq, hr, by simp⟩)]
  rfl

/-- **C67**, a file that cannot be read is a failure without effect. -/
theorem C67_missing (K : Program V ε ρ) (d : Nat) (s : Session V ρ) (p : Str) (he : '=' ∉ p)
    (hp : ¬ "simplification ".toList <+: p) (hf : K.files p = none) :
    execCommand K (d + 1) s ("load ".toList ++ p) = .ok (.returned s false) := by
  rw [execCommand, load_first p he]
  simp only [runCommand, loadExec]
  rw [load_plain p hp]
  have : ("load ".toList ++ p).drop loadCommand.length = p := List.drop_left' rfl
  rw [this, hf]
  rfl

/-- **C67**, rules are loaded into the world; the status tells whether they could be read. -/
theorem C67_rules (K : Program V ε ρ) (d : Nat) (s : Session V ρ) (p : Str) (he : '=' ∉ p) (w : ρ) (ok : Bool)
    (hi : K.initSimp s.world s.ctx p = .ok (w, ok)) :
    execCommand K (d + 1) s ("load simplification ".toList ++ p) = .ok (.returned { s with world := w } ok) := by
  have e : "load simplification ".toList ++ p = "load ".toList ++ ("simplification ".toList ++ p) := by
    rw [← List.append_assoc]; rfl
  have h1 : firstCommand ("load simplification ".toList ++ p) commandTable = some .load := by
    rw [e]; exact load_first _ (by simp [he])
  have h2 : beginsWith loadSimpCommand ("load simplification ".toList ++ p) = true :=
    (StringProps.C55_begins _ _).2 ⟨p, rfl⟩
  have h3 : ("load simplification ".toList ++ p).drop loadSimpCommand.length = p := List.drop_left' rfl
  rw [execCommand, h1]
  simp only [runCommand, loadExec]
  rw [h2, if_pos rfl, h3, hi]
  rfl

/-- **C67**, the bound of the nesting does not matter as long as it is not reached. -/
theorem C67_depth (K : Program V ε ρ) (d d' : Nat) (hd : d ≤ d') (s : Session V ρ) (i : Str) (x : Fate (Session V ρ))
    (h : execCommand K d s i = .ok x) : execCommand K d' s i = .ok x := by
  rw [execCommand_mono K hd s i (by rw [h]; intro hx; cases hx), h]

/-- A file that loads itself never ends, however deep the nesting. -/
theorem C67_loop (K : Program V ε ρ) (d : Nat) (s : Session V ρ) (p : Str) (he : '=' ∉ p)
    (hp : ¬ "simplification ".toList <+: p) (hn : '\n' ∉ p ∧ nul ∉ p)
    (hf : K.files p = some ("load ".toList ++ p ++ ['\n'])) :
    execCommand K d s ("load ".toList ++ p) = .hang := by
  induction d generalizing s with
  | zero => rfl
  | succ d ih =>
    rw [load_exec K d s p _ he hp hf]
    have ht : TextOf ["load ".toList ++ p] ("load ".toList ++ p ++ ['\n']) := by
      refine ⟨by simp, ?_⟩
      intro l hl
      rw [List.mem_singleton.1 hl]
      refine ⟨?_, ?_⟩
      · simp [hn.1]
      · have := hn.2
        simp only [List.mem_append, not_or]
        exact ⟨by decide, this⟩
    have := (C48_fails_partial (execCommand K d) _ _ ht s .hang).2
      ⟨[], _, [], s, [], rfl, by simp, by simp, by simp [counts], .nil _, ih s⟩
    rw [this]
    rfl

/-- The commands given as arguments: all are executed in order if all succeed; the first that fails ends the
program with a failure, and the later ones are not executed. -/
theorem C48_arguments (exec : σ → Str → Out (Fate σ)) (args : List Str) (s : σ) :
    (∀ t, commandArgs exec args s = .ok (.returned t true) ↔ ∃ bs, Runs exec s args t bs ∧ ∀ b ∈ bs, b = true) ∧
    (commandArgs exec args s = .ok (.exited false) ↔
      ∃ a i b t bs, args = a ++ i :: b ∧ Runs exec s a t bs ∧ (∀ b ∈ bs, b = true) ∧
        ((∃ t', exec t i = .ok (.returned t' false)) ∨ exec t i = .ok (.exited false))) := by
  induction args generalizing s with
  | nil =>
    refine ⟨?_, ?_⟩
    · intro t
      simp only [commandArgs, Out.ok.injEq, Fate.returned.injEq, and_true]
      constructor
      · rintro rfl; exact ⟨[], .nil _, by simp⟩
      · rintro ⟨bs, h, -⟩; cases h; rfl
    · simp [commandArgs]
  | cons i is ih =>
    rw [commandArgs]
    refine ⟨?_, ?_⟩
    · intro t
      rw [Out.bind_eq_ok]
      constructor
      · rintro ⟨f, h1, h2⟩
        match f, h1, h2 with
        | .returned s' true, h1, h2 =>
          obtain ⟨bs, h3, h4⟩ := ((ih s').1 t).1 h2
          exact ⟨true :: bs, .cons h1 h3, by simpa using h4⟩
        | .returned s' false, h1, h2 => simp at h2
        | .exited ok, h1, h2 => simp at h2
      · rintro ⟨bs, h1, h2⟩
        cases h1 with
        | cons h3 h4 =>
          simp only [List.mem_cons, forall_eq_or_imp] at h2
          obtain ⟨rfl, h2⟩ := h2
          exact ⟨_, h3, ((ih _).1 t).2 ⟨_, h4, h2⟩⟩
    · rw [Out.bind_eq_ok]
      constructor
      · rintro ⟨f, h1, h2⟩
        match f, h1, h2 with
        | .returned s' true, h1, h2 =>
          obtain ⟨a, j, b, t, bs, rfl, h3, h4, h5⟩ := (ih s').2.1 h2
          exact ⟨i :: a, j, b, t, true :: bs, rfl, .cons h1 h3, by simpa using h4, h5⟩
        | .returned s' false, h1, h2 => exact ⟨[], i, is, s, [], rfl, .nil _, by simp, .inl ⟨s', h1⟩⟩
        | .exited ok, h1, h2 =>
          simp at h2
          subst h2
          exact ⟨[], i, is, s, [], rfl, .nil _, by simp, .inr h1⟩
      · rintro ⟨a, j, b, t, bs, h, h3, h4, h5⟩
        cases a with
        | nil =>
          simp only [List.nil_append, List.cons.injEq] at h
          obtain ⟨rfl, rfl⟩ := h
          cases h3
          rcases h5 with ⟨t', h5⟩ | h5
          · exact ⟨_, h5, rfl⟩
          · exact ⟨_, h5, rfl⟩
        | cons c a =>
          simp only [List.cons_append, List.cons.injEq] at h
          obtain ⟨rfl, rfl⟩ := h
          cases h3 with
          | cons h6 h7 =>
            simp only [List.mem_cons, forall_eq_or_imp] at h4
            obtain ⟨rfl, h4⟩ := h4
            exact ⟨_, h6, (ih _).2.2 ⟨a, j, b, t, _, rfl, h7, h4, h5⟩⟩

/-! ## C68: all commands together -/

/-- What the table command does to the session: the history grows by the result of a fold, if there is
one, and by nothing else. -/
theorem tableExec_same {K : Program V ε ρ} {s s' : Session V ρ} {i : Str} {r : Option (TableOut V)}
    (h : tableExec K s i = .ok (s', r)) :
    ∃ w, s' = { s with world := w, hist := s.hist ++ (r.bind (·.fold)).toList } := by
  have hshow : ∀ (s s' : Session V ρ) e v a b c f r, tableShow K s e v a b c f = .ok (s', r) →
      ∃ w, s' = { s with world := w, hist := s.hist ++ (r.bind (·.fold)).toList } := by
    intro s s' e v a b c f r h
    unfold tableShow at h
    obtain ⟨⟨w, rows, acc⟩, -, h2⟩ := Out.bind_eq_ok.1 h
    cases f with
    | none => cases h2; exact ⟨w, by simp⟩
    | some p => cases h2; exact ⟨w, by simp [historyAdd]⟩
  have hfold : ∀ (s s' : Session V ρ) e v a b c l r, tableFold K s e v a b c l = .ok (s', r) →
      ∃ w, s' = { s with world := w, hist := s.hist ++ (r.bind (·.fold)).toList } := by
    intro s s' e v a b c l r h
    cases l with
    | nil => exact hshow _ _ _ _ _ _ _ _ _ h
    | cons x l =>
      rw [tableFold] at h
      · obtain ⟨⟨s1, o⟩, h1, h2⟩ := Out.bind_eq_ok.1 h
        obtain ⟨w, rfl⟩ := parseAll_same h1
        simp only at h2
        split at h2
        · rename_i heq
          cases heq
          split at h2
          · cases h2; exact ⟨_, by simp; rfl⟩
          · split at h2
            · cases h2; exact ⟨_, by simp; rfl⟩
            · obtain ⟨⟨w', a'⟩, -, h4⟩ := Out.bind_eq_ok.1 h2
              obtain ⟨w'', h5⟩ := hshow _ _ _ _ _ _ _ _ _ h4
              exact ⟨w'', h5⟩
        · cases h2; rename_i heq; cases heq; exact ⟨_, by simp; rfl⟩
      · intro hx; cases hx
  have hbounds : ∀ (s s' : Session V ρ) e v b l r, tableBounds K s e v b l = .ok (s', r) →
      ∃ w, s' = { s with world := w, hist := s.hist ++ (r.bind (·.fold)).toList } := by
    intro s s' e v b l r h
    unfold tableBounds at h
    obtain ⟨⟨s1, o⟩, h1, h2⟩ := Out.bind_eq_ok.1 h
    obtain ⟨w, rfl⟩ := parseAll_same h1
    simp only at h2
    split at h2
    · rename_i heq
      cases heq
      split at h2
      · cases h2; exact ⟨_, by simp; rfl⟩
      · obtain ⟨⟨w1, _⟩, -, h2⟩ := Out.bind_eq_ok.1 h2
        obtain ⟨⟨w2, _⟩, -, h2⟩ := Out.bind_eq_ok.1 h2
        obtain ⟨⟨w3, _⟩, -, h2⟩ := Out.bind_eq_ok.1 h2
        simp only at h2
        split at h2
        · cases h2; exact ⟨w3, by simp⟩
        · obtain ⟨w'', h5⟩ := hfold _ _ _ _ _ _ _ _ _ h2
          exact ⟨w'', h5⟩
    · rename_i heq; cases heq; cases h2; exact ⟨_, by simp; rfl⟩
  unfold tableExec at h
  simp only at h
  split at h
  · cases h; exact ⟨s.world, by simp⟩
  · obtain ⟨⟨m, os⟩, -, h2⟩ := Out.bind_eq_ok.1 h
    simp only at h2
    generalize os.map (cstrAt m) = l at h2
    match l, h2 with
    | e :: a :: b :: c :: more, h2 =>
      rw [tableExpr] at h2
      obtain ⟨⟨s1, o⟩, h3, h4⟩ := Out.bind_eq_ok.1 h2
      obtain ⟨w, rfl⟩ := arithParse_same h3
      cases o with
      | none => cases h4; exact ⟨w, by simp⟩
      | some t =>
        simp only at h4
        split at h4
        · cases h4; exact ⟨w, by simp⟩
        · obtain ⟨w'', h5⟩ := hbounds _ _ _ _ _ _ _ h4
          exact ⟨w'', h5⟩
    | [], h2 => cases h2
    | [_], h2 => cases h2
    | [_, _], h2 => cases h2
    | [_, _, _], h2 => cases h2

/-- **C68.** Whatever is entered, files included, the session is in one of the states the theorems about
definitions, clearing and history speak of. -/
theorem C68_reachable (K : Program V ε ρ) (d : Nat) (s t : Session V ρ) (i : Str) (ok : Bool) (hs : Reachable K.toClient s)
    (h : execCommand K d s i = .ok (.returned t ok)) : Reachable K.toClient t := by
  induction d generalizing s t i ok with
  | zero => cases h
  | succ d ih =>
    have hlines : ∀ (lines : List Str) (s t : Session V ρ) (res ok : Bool), Reachable K.toClient s →
        processLines (execCommand K d) lines s res = .ok (.returned t ok) → Reachable K.toClient t := by
      intro lines
      induction lines with
      | nil => intro s t res ok hs h; cases h; exact hs
      | cons l ls ih' =>
        intro s t res ok hs h
        rw [processLines] at h
        obtain ⟨input, -, h⟩ := Out.bind_eq_ok.1 h
        split at h
        · cases h
        · split at h
          · exact ih' _ _ _ _ hs h
          · obtain ⟨f, h1, h2⟩ := Out.bind_eq_ok.1 h
            cases f with
            | exited => cases h2
            | returned s' b => exact ih' _ _ _ _ (ih _ _ _ _ hs h1) h2
    rw [execCommand] at h
    cases hc : firstCommand i commandTable with
    | none => rw [hc] at h; cases h; exact hs
    | some c =>
      rw [hc] at h
      have hl := ((C47_exact i c).1 hc).1
      simp only at h
      cases c with
      | help => cases h; exact hs
      | table =>
        obtain ⟨⟨s', r⟩, h1, h2⟩ := Out.bind_eq_ok.1 h
        cases h2
        obtain ⟨w, rfl⟩ := tableExec_same h1
        exact .outside _ _ hs
      | definition =>
        obtain ⟨⟨s', r⟩, h1, h2⟩ := Out.bind_eq_ok.1 h
        cases h2
        exact .define hs trivial ((check_looks i).2.2.1.2 hl) h1
      | clear =>
        obtain ⟨⟨s', r⟩, h1, h2⟩ := Out.bind_eq_ok.1 h
        cases h2
        exact .clear hs trivial ((check_looks i).2.2.2.1.2 hl) (Out.of_eq_ok.1 h1)
      | load =>
        simp only [runCommand, loadExec] at h
        split at h
        · obtain ⟨⟨w, b⟩, h1, h2⟩ := Out.bind_eq_ok.1 h
          cases h2
          exact .outside s.hist w hs
        · split at h
          · cases h; exact hs
          · obtain ⟨f, h1, h2⟩ := Out.bind_eq_ok.1 h
            cases f with
            | exited => cases h2
            | returned s' b =>
              cases h2
              exact hlines _ _ _ _ _ hs h1
      | evaluation =>
        obtain ⟨⟨s', r⟩, h1, h2⟩ := Out.bind_eq_ok.1 h
        cases h2
        exact .evaluate hs h1

/-- **C68**, the history: a command other than `load` leaves it alone or adds one number; it does so only if
it succeeds and is a table with a fold or an evaluation whose result is a constant.  Tables and evaluations
succeed if they have a result. -/
theorem C68_history (K : Program V ε ρ) (d : Nat) (s t : Session V ρ) (i : Str) (c : Command) (ok : Bool)
    (hc : firstCommand i commandTable = some c) (hl : c ≠ .load) (hs : Reachable K.toClient s)
    (h : execCommand K (d + 1) s i = .ok (.returned t ok)) :
    (c = .table ∧ ∃ w r, tableExec K s i = .ok ({ s with world := w, hist := t.hist }, r) ∧ (ok = true ↔ r ≠ none) ∧
      t.hist = s.hist ++ (r.bind (·.fold)).toList) ∨
    (c = .evaluation ∧ ∃ r, evaluationExec K.toClient s i = .ok (t, r) ∧ (ok = true ↔ r ≠ none) ∧
      ((∃ v j, r = some (.const v j) ∧ t.hist = s.hist ++ [v]) ∨ (∀ v j, r ≠ some (.const v j)) ∧ t.hist = s.hist)) ∨
    c ≠ .table ∧ c ≠ .evaluation ∧ t.hist = s.hist := by
  rw [execCommand, hc] at h
  simp only at h
  obtain ⟨D, hD⟩ := hs.sess
  cases c with
  | load => exact (hl rfl).elim
  | help => cases h; simp
  | table =>
    obtain ⟨⟨s', r⟩, h1, h2⟩ := Out.bind_eq_ok.1 h
    cases h2
    obtain ⟨w, rfl⟩ := tableExec_same h1
    exact .inl ⟨rfl, w, r, h1, by cases r <;> simp, rfl⟩
  | evaluation =>
    obtain ⟨⟨s', r⟩, h1, h2⟩ := Out.bind_eq_ok.1 h
    cases h2
    obtain ⟨h3, h4⟩ := C38_record _ _ _ _ _ h1
    refine .inr (.inl ⟨rfl, r, h1, by cases r <;> simp, ?_⟩)
    by_cases hr : ∃ v j, r = some (.const v j)
    · obtain ⟨v, j, hr⟩ := hr
      exact .inl ⟨v, j, hr, h3 v j hr⟩
    · have hr' : ∀ v j, r ≠ some (.const v j) := fun v j e => hr ⟨v, j, e⟩
      exact .inr ⟨hr', h4 hr'⟩
  | definition =>
    obtain ⟨⟨s', r⟩, h1, h2⟩ := Out.bind_eq_ok.1 h
    cases h2
    refine .inr (.inr ⟨by simp, by simp, ?_⟩)
    cases ok with
    | false => exact (C33_unchanged _ _ _ hs _ h1).2.1
    | true =>
      obtain ⟨_, _, _, _, h3, _⟩ := C32_defines _ _ _ D hD _ h1
      exact h3
  | clear =>
    obtain ⟨⟨s', r⟩, h1, h2⟩ := Out.bind_eq_ok.1 h
    cases h2
    refine .inr (.inr ⟨by simp, by simp, ?_⟩)
    have h1 := Out.of_eq_ok.1 h1
    unfold clearExec at h1
    split at h1
    · obtain ⟨_, -, h3⟩ := Res.bind_eq_ok.1 h1
      cases h3; rfl
    · obtain ⟨o, -, h3⟩ := Res.bind_eq_ok.1 h1
      cases o with
      | none => cases h3; rfl
      | some o =>
        simp only at h3
        split at h3
        · cases h3; rfl
        · obtain ⟨_, -, h3⟩ := Res.bind_eq_ok.1 h3
          cases h3; rfl

end Verif.CommandProps
