import Verif.Model.Main
import Verif.Props.Trie
import Verif.Props.Commands
import Verif.Props.CommandRuns

/-!
# C84: the command line

Specification: each switch has a long and a short name; what counts are the arguments before the first switch for commands.
-/

namespace Verif.MainProps
open Verif.TrieProps CommandSpec CommandProps
variable {σ : Type}

/-- The names of the switches, README.md ("Command line arguments"). -/
def names : Switch → List Str
  | .help => ["--help".toList, "-h".toList]
  | .version => ["--version".toList, "-v".toList]
  | .interactive => ["--interactive".toList, "-i".toList]
  | .quiet => ["--quiet".toList, "-q".toList]
  | .commands => ["--commands".toList, "-c".toList]

/-- All arguments are switches, but none is the one for commands. -/
def Switches (args : List Str) : Prop := ∀ a ∈ args, ∃ sw, sw ≠ .commands ∧ a ∈ names sw

/-- The switch is among the arguments. -/
def Has (sw : Switch) (args : List Str) : Prop := ∃ a ∈ args, a ∈ names sw

/-- No more arguments, or the switch for commands and the commands. -/
inductive Rest : List Str → Option (List Str) → Prop
  | none : Rest [] none
  | commands {c cmds} : c ∈ names .commands → Rest (c :: cmds) (some cmds)

theorem step_of_addElem {α : Type} {t t' : Trie α} {s : Str} {a : α} (h : t.addElem s a = .ok t') :
    step t (.add s a) = .ok t' := by
  unfold Trie.addElem at h
  obtain ⟨⟨t1, b⟩, h1, h⟩ := Res.bind_eq_ok.1 h
  simp only [step]
  rw [h1]
  simp only [Res.bind_ok]
  cases b with
  | true => exact h
  | false => cases h

theorem run_of_addSwitches (l : List (Str × Switch)) (t t' : Trie Switch) (h : addSwitches t l = .ok t') :
    run t (l.map fun p => .add p.1 p.2) = .ok t' := by
  induction l generalizing t with
  | nil => exact h
  | cons p l ih =>
    unfold addSwitches at h
    obtain ⟨t1, h1, h⟩ := Res.bind_eq_ok.1 h
    simp only [List.map_cons, run]
    rw [step_of_addElem h1]
    exact ih _ h

theorem switch_trie : ∃ t, addSwitches Trie.create switchTable = .ok t ∧
    ∀ a, (∃ sw, t.contains a = (true, some sw) ∧ a ∈ names sw) ∨ ((t.contains a).1 = false ∧ ∀ sw, a ∉ names sw) := by
  have key : (match addSwitches Trie.create switchTable with | .ok _ => true | _ => false) = true := by decide +kernel
  split at key
  · rename_i t ht
    refine ⟨t, ht, fun a => ?_⟩
    obtain ⟨t1, h1, h2, h3, -⟩ := C01_trie_refines_map (switchTable.map fun p => TrieOp.add p.1 p.2) (by
      intro o ho
      obtain ⟨p, hp, rfl⟩ := List.mem_map.1 ho
      have : ∀ p ∈ switchTable, Storable p.1 := by decide +kernel
      exact this p hp)
    rw [run_of_addSwitches _ _ _ ht] at h1
    cases h1
    have hm : (switchTable.map fun p => TrieOp.add p.1 p.2).foldl specStep [] = switchTable := by decide +kernel
    rw [hm] at h2 h3
    have hget : ∀ sw, SpecMap.get switchTable a = some sw → a ∈ names sw := by
      intro sw h
      obtain ⟨p, hp, rfl⟩ := Option.map_eq_some_iff.1 h
      have h4 := List.find?_some hp
      have h5 := List.mem_of_find?_eq_some hp
      have : ∀ p ∈ switchTable, p.1 ∈ names p.2 := by decide +kernel
      rw [← beq_iff_eq.1 h4]
      exact this p h5
    cases hg : SpecMap.get switchTable a with
    | some sw =>
      left
      have e1 := h2 a
      rw [hg] at e1
      have e2 := h3 a (by rw [e1]; rfl)
      exact ⟨sw, by rw [← hg, ← e2, show true = (t.contains a).1 from e1.symm], hget sw hg⟩
    | none =>
      right
      refine ⟨by rw [h2, hg]; rfl, fun sw hsw => ?_⟩
      have e : ∀ sw, ∀ b ∈ names sw, (SpecMap.get switchTable b).isSome = true := by
        intro sw; cases sw <;> decide +kernel
      have := e sw a hsw
      rw [hg] at this
      cases this
  · cases key

theorem names_unique {a : Str} {sw sw' : Switch} (h : a ∈ names sw) (h' : a ∈ names sw') : sw = sw' := by
  have e : ∀ sw sw' : Switch, sw ≠ sw' → ∀ b ∈ names sw, b ∉ names sw' := by
    intro sw sw'; cases sw <;> cases sw' <;> decide +kernel
  by_contra hne
  exact e _ _ hne a h h'

/-- Every argument list is of one of these forms. -/
theorem C84_cases (args : List Str) : ∃ pre rest, args = pre ++ rest ∧ Switches pre ∧
    ((∃ cmds, Rest rest cmds) ∨ ∃ a more, rest = a :: more ∧ ∀ sw, a ∉ names sw) := by
  induction args with
  | nil => exact ⟨[], [], rfl, by simp [Switches], .inl ⟨_, .none⟩⟩
  | cons a args ih =>
    by_cases h : ∃ sw, a ∈ names sw
    · obtain ⟨sw, hsw⟩ := h
      by_cases hc : sw = .commands
      · subst hc
        exact ⟨[], _, rfl, by simp [Switches], .inl ⟨_, .commands hsw⟩⟩
      · obtain ⟨pre, rest, rfl, h1, h2⟩ := ih
        refine ⟨a :: pre, rest, rfl, ?_, h2⟩
        intro b hb
        rcases List.mem_cons.1 hb with rfl | hb
        · exact ⟨sw, hc, hsw⟩
        · exact h1 b hb
    · exact ⟨[], _, rfl, by simp [Switches], .inr ⟨a, args, rfl, fun sw hsw => h ⟨sw, hsw⟩⟩⟩

/-- The value of a flag. -/
def flag (f : Flags) : Switch → Bool
  | .interactive => f.interactive
  | .quiet => f.quiet
  | .help => f.help
  | .version => f.version
  | .commands => f.commands

theorem flag_set (f : Flags) (sw sw' : Switch) : flag (f.set sw) sw' = (flag f sw' || decide (sw = sw')) := by
  cases sw <;> cases sw' <;> simp [flag, Flags.set]

section
variable {t : Trie Switch}
  (ht : ∀ a, (∃ sw, t.contains a = (true, some sw) ∧ a ∈ names sw) ∨ ((t.contains a).1 = false ∧ ∀ sw, a ∉ names sw))
include ht

theorem parseArg_names {a : Str} {sw : Switch} (h : a ∈ names sw) (f : Flags) : parseArg t a f = .ok (f.set sw, some sw) := by
  rcases ht a with ⟨sw', h1, h2⟩ | ⟨-, h2⟩
  · rw [names_unique h h2]
    simp [parseArg, h1]
  · exact absurd h (h2 sw)

theorem parseArg_other {a : Str} (h : ∀ sw, a ∉ names sw) (f : Flags) : parseArg t a f = .ok (f, none) := by
  rcases ht a with ⟨sw', h1, h2⟩ | ⟨h1, -⟩
  · exact absurd h2 (h sw')
  · unfold parseArg
    rcases hc : t.contains a with ⟨b, d⟩
    rw [hc] at h1
    simp only at h1
    subst h1
    rfl

theorem parseArgs_skip (pre rest : List Str) (h : Switches pre) (f : Flags) :
    ∃ f', parseArgs t (pre ++ rest) f = parseArgs t rest f' ∧
      ∀ sw, flag f' sw = true ↔ flag f sw = true ∨ Has sw pre := by
  induction pre generalizing f with
  | nil => exact ⟨f, rfl, by simp [Has]⟩
  | cons a pre ih =>
    obtain ⟨sw, h1, h2⟩ := h a (by simp)
    obtain ⟨f', h3, h4⟩ := ih (fun b hb => h b (by simp [hb])) (f.set sw)
    refine ⟨f', ?_, fun sw' => ?_⟩
    · rw [← h3, List.cons_append, parseArgs, parseArg_names ht h2]
      cases sw <;> first | rfl | exact absurd rfl h1
    · rw [h4, flag_set]
      simp only [Has, List.exists_mem_cons_iff, Bool.or_eq_true, decide_eq_true_eq, or_assoc]
      refine or_congr Iff.rfl (or_congr ⟨?_, fun hn => names_unique h2 hn⟩ Iff.rfl)
      rintro rfl; exact h2

theorem parseArgs_rest {pre rest : List Str} (h : Switches pre) {cmds : Option (List Str)} (hr : Rest rest cmds) :
    ∃ f, parseArgs t (pre ++ rest) {} = .ok (.ok (f, cmds)) ∧
      ∀ sw, sw ≠ .commands → (flag f sw = true ↔ Has sw pre) := by
  obtain ⟨f, h1, h2⟩ := parseArgs_skip ht pre rest h {}
  have h0 : ∀ sw, flag ({} : Flags) sw = false := by intro sw; cases sw <;> rfl
  rw [h1]
  cases hr with
  | none => exact ⟨f, rfl, fun sw _ => by rw [h2, h0]; simp⟩
  | commands hc =>
    refine ⟨f.set .commands, ?_, fun sw hsw => ?_⟩
    · rw [parseArgs, parseArg_names ht hc]
      rfl
    · rw [flag_set, Bool.or_eq_true, h2, h0]
      simp [hsw.symm]

end

/-- **C84**, other arguments: the first that is not known is reported, the program fails; nothing was executed. -/
theorem C84_unrecognized (init : Out σ) (exec : σ → Str → Out (Fate σ)) (stdin : Str) (tty : Bool) (pre more : List Str)
    (a : Str) (h : Switches pre) (ha : ∀ sw, a ∉ names sw) :
    mainProgram init exec stdin tty (pre ++ a :: more) = .ok ([.unrecognized a], false) := by
  obtain ⟨t, h1, ht⟩ := switch_trie
  obtain ⟨f, h2, -⟩ := parseArgs_skip ht pre (a :: more) h {}
  unfold mainProgram
  rw [h1, Out.of_ok, Out.bind_ok, h2, parseArgs, parseArg_other ht ha]
  rfl

/-- **C84**, help: shown if the switch is given, whatever else is given; nothing is executed. -/
theorem C84_help (init : Out σ) (exec : σ → Str → Out (Fate σ)) (stdin : Str) (tty : Bool) (pre rest : List Str)
    (cmds : Option (List Str)) (h : Switches pre) (hr : Rest rest cmds) (hh : Has .help pre) :
    mainProgram init exec stdin tty (pre ++ rest) = .ok ([.usage], true) := by
  obtain ⟨t, h1, ht⟩ := switch_trie
  obtain ⟨f, h2, h3⟩ := parseArgs_rest ht h hr
  unfold mainProgram
  rw [h1, Out.of_ok, Out.bind_ok, h2, Out.of_ok, Out.bind_ok]
  have : f.help = true := (h3 .help (by decide)).2 hh
  simp [this]

/-- **C84**, the version. -/
theorem C84_version (init : Out σ) (exec : σ → Str → Out (Fate σ)) (stdin : Str) (tty : Bool) (pre rest : List Str)
    (cmds : Option (List Str)) (h : Switches pre) (hr : Rest rest cmds) (hh : ¬ Has .help pre) (hv : Has .version pre) :
    mainProgram init exec stdin tty (pre ++ rest) = .ok ([.version], true) := by
  obtain ⟨t, h1, ht⟩ := switch_trie
  obtain ⟨f, h2, h3⟩ := parseArgs_rest ht h hr
  unfold mainProgram
  rw [h1, Out.of_ok, Out.bind_ok, h2, Out.of_ok, Out.bind_ok]
  have e1 : ¬ f.help = true := fun hf => hh ((h3 .help (by decide)).1 hf)
  have e2 : f.version = true := (h3 .version (by decide)).2 hv
  simp [e1, e2]

/-- How the program ends: the status of the commands, or of standard input. -/
def status : Fate σ → Bool
  | .returned _ ok => ok
  | .exited ok => ok

theorem commandArgs_not_false (exec : σ → Str → Out (Fate σ)) (args : List Str) (s t : σ) :
    commandArgs exec args s ≠ .ok (.returned t false) := by
  induction args generalizing s with
  | nil => simp [commandArgs]
  | cons a args ih =>
    intro h
    rw [commandArgs] at h
    obtain ⟨r, -, h⟩ := Out.bind_eq_ok.1 h
    match r, h with
    | .returned s' true, h => exact ih s' h
    | .returned s' false, h => cases h
    | .exited ok, h => cases h

/-- What is shown before the commands: the banner, if there is a terminal and it is not turned off. -/
def Banner (quiet tty : Prop) (shown : List Shown) : Prop :=
  (shown = [.banner] ∧ ¬ quiet ∧ tty) ∨ (shown = [] ∧ (quiet ∨ ¬ tty))

/-- The program without help and version. -/
theorem main_runs (init : Out σ) (exec : σ → Str → Out (Fate σ)) (stdin : Str) (tty : Bool) (pre rest : List Str)
    (cmds : Option (List Str)) (h : Switches pre) (hr : Rest rest cmds) (hh : ¬ Has .help pre) (hv : ¬ Has .version pre) :
    ∃ f : Flags, (f.interactive = true ↔ Has .interactive pre) ∧ (f.quiet = true ↔ Has .quiet pre) ∧
      mainProgram init exec stdin tty (pre ++ rest) = (do
        let s ← init
        let r ← runArgs exec cmds s
        let ok ← finishMain exec stdin (cmds.isSome && !f.interactive) r
        pure (banner f cmds tty, ok)) := by
  obtain ⟨t, h1, ht⟩ := switch_trie
  obtain ⟨f, h2, h3⟩ := parseArgs_rest ht h hr
  refine ⟨f, h3 .interactive (by decide), h3 .quiet (by decide), ?_⟩
  unfold mainProgram
  rw [h1, Out.of_ok, Out.bind_ok, h2, Out.of_ok, Out.bind_ok]
  have e1 : f.help = false := Bool.eq_false_iff.2 fun hf => hh ((h3 .help (by decide)).1 hf)
  have e2 : f.version = false := Bool.eq_false_iff.2 fun hf => hv ((h3 .version (by decide)).1 hf)
  simp only [e1, e2, Bool.false_eq_true, if_false]

/-- **C84**, commands without `-i`: they are executed in order, and the program ends; successfully if and only
if all succeed, or one of them ends the program with success and all before it succeed.  Nothing is read from
standard input. -/
theorem C84_commands (init : Out σ) (exec : σ → Str → Out (Fate σ)) (stdin : Str) (tty : Bool) (pre cmds : List Str)
    (c : Str) (h : Switches pre) (hc : c ∈ names .commands) (hh : ¬ Has .help pre) (hv : ¬ Has .version pre)
    (hi : ¬ Has .interactive pre) (shown : List Shown) (ok : Bool) :
    mainProgram init exec stdin tty (pre ++ c :: cmds) = .ok (shown, ok) ↔
      shown = [] ∧ ∃ s, init = .ok s ∧
        ((ok = true ∧ ∃ t bs, Runs exec s cmds t bs ∧ ∀ b ∈ bs, b = true) ∨
        ∃ a i b t bs, cmds = a ++ i :: b ∧ Runs exec s a t bs ∧ (∀ b ∈ bs, b = true) ∧
          ((ok = false ∧ ∃ t', exec t i = .ok (.returned t' false)) ∨ exec t i = .ok (.exited ok))) := by
  obtain ⟨f, e1, -, e2⟩ := main_runs init exec stdin tty pre (c :: cmds) _ h (.commands hc) hh hv
  have e3 : f.interactive = false := Bool.eq_false_iff.2 fun hf => hi (e1.1 hf)
  rw [e2]
  simp only [runArgs, banner, e3, Option.isNone_some, Bool.or_false, Bool.false_eq_true, if_false, Option.isSome_some,
    Bool.not_false, Bool.and_true]
  have hex : ∀ s, (commandArgs exec cmds s = .ok (.exited ok) ↔ ∃ a i b t bs, cmds = a ++ i :: b ∧ Runs exec s a t bs ∧
      (∀ b ∈ bs, b = true) ∧ ((ok = false ∧ ∃ t', exec t i = .ok (.returned t' false)) ∨ exec t i = .ok (.exited ok))) := by
    clear e2
    intro s
    induction cmds generalizing s with
    | nil => simp [commandArgs]
    | cons i is ih =>
      rw [commandArgs, Out.bind_eq_ok]
      constructor
      · rintro ⟨r, h1, h2⟩
        match r, h1, h2 with
        | .returned s' true, h1, h2 =>
          obtain ⟨a, j, b, t, bs, rfl, g1, g2, g3⟩ := (ih s').1 h2
          exact ⟨i :: a, j, b, t, true :: bs, rfl, .cons h1 g1, by simpa using g2, g3⟩
        | .returned s' false, h1, h2 =>
          cases h2
          exact ⟨[], i, is, s, [], rfl, .nil _, by simp, .inl ⟨rfl, s', h1⟩⟩
        | .exited ok', h1, h2 =>
          cases h2
          exact ⟨[], i, is, s, [], rfl, .nil _, by simp, .inr h1⟩
      · rintro ⟨a, j, b, t, bs, g0, g1, g2, g3⟩
        cases g1 with
        | nil =>
          simp only [List.nil_append, List.cons.injEq] at g0
          obtain ⟨rfl, rfl⟩ := g0
          rcases g3 with ⟨rfl, t', g3⟩ | g3
          · exact ⟨_, g3, rfl⟩
          · exact ⟨_, g3, rfl⟩
        | @cons _ k s' x ks _ ys k1 k2 =>
          simp only [List.cons_append, List.cons.injEq] at g0
          obtain ⟨rfl, rfl⟩ := g0
          have : x = true := g2 x (by simp)
          subst this
          exact ⟨_, k1, (ih s').2 ⟨ks, j, b, t, ys, rfl, k2, fun y hy => g2 y (by simp [hy]), g3⟩⟩
  rw [Out.bind_eq_ok]
  constructor
  · rintro ⟨s, h1, h2⟩
    obtain ⟨r, h3, h4⟩ := Out.bind_eq_ok.1 h2
    match r, h3, h4 with
    | .returned t true, h3, h4 =>
      cases h4
      exact ⟨rfl, s, h1, .inl ⟨rfl, t, ((C48_arguments exec cmds s).1 t).1 h3⟩⟩
    | .returned t false, h3, h4 => exact absurd h3 (commandArgs_not_false _ _ _ _)
    | .exited ok', h3, h4 =>
      cases h4
      exact ⟨rfl, s, h1, .inr ((hex s).1 h3)⟩
  · rintro ⟨rfl, s, h1, h2⟩
    refine ⟨s, h1, ?_⟩
    rcases h2 with ⟨rfl, t, h2⟩ | h2
    · rw [((C48_arguments exec cmds s).1 t).2 h2]
      rfl
    · rw [(hex s).2 h2]
      rfl

/-- **C84**, no commands, or commands with `-i`: if all commands succeed, standard input is processed from the state the
commands lead to; the status is that of standard input (see C48).  The banner is shown only with a terminal,
and not with `-q`. -/
theorem C84_input (init : Out σ) (exec : σ → Str → Out (Fate σ)) (stdin : Str) (tty : Bool) (pre rest cmds : List Str)
    (h : Switches pre) (hr : (rest = [] ∧ cmds = []) ∨ (Has .interactive pre ∧ Rest rest (some cmds)))
    (hh : ¬ Has .help pre) (hv : ¬ Has .version pre) (s t : σ) (bs : List Bool) (hinit : init = .ok s)
    (hrun : Runs exec s cmds t bs) (hbs : ∀ b ∈ bs, b = true) (ok : Bool) :
    (∃ shown, Banner (Has .quiet pre) (tty = true) shown ∧
      mainProgram init exec stdin tty (pre ++ rest) = .ok (shown, ok)) ↔
      (∃ t', processInput exec t stdin = .ok (.returned t' ok)) ∨ processInput exec t stdin = .ok (.exited ok) := by
  obtain ⟨cs, hrest, hargs, hsome⟩ : ∃ cs, Rest rest cs ∧ runArgs exec cs s = .ok (.returned t true) ∧ (cs.isSome = true → Has .interactive pre) := by
    rcases hr with ⟨rfl, rfl⟩ | ⟨hi, hr⟩
    · cases hrun
      exact ⟨_, .none, rfl, by simp⟩
    · exact ⟨_, hr, ((C48_arguments exec cmds s).1 t).2 ⟨bs, hrun, hbs⟩, fun _ => hi⟩
  obtain ⟨f, e1, e2, e3⟩ := main_runs init exec stdin tty pre rest _ h hrest hh hv
  have hint : (f.interactive || cs.isNone) = true := by
    cases cs with
    | none => simp
    | some cs => rw [e1.2 (hsome rfl)]; rfl
  have hno : (cs.isSome && !f.interactive) = false := by
    cases cs with
    | none => rfl
    | some cs => rw [e1.2 (hsome rfl)]; rfl
  rw [e3, hinit]
  simp only [Out.bind_ok]
  rw [hargs]
  simp only [Out.bind_ok, banner, finishMain, hno, hint, if_true, Bool.false_eq_true, if_false]
  have hban : ∀ shown, Banner (Has .quiet pre) (tty = true) shown ↔ shown = if (!f.quiet && tty) = true then [Shown.banner] else [] := by
    intro shown
    unfold Banner
    rw [← e2]
    cases f.quiet <;> cases tty <;> simp
  simp only [hban]
  cases processInput exec t stdin with
  | ok r => cases r <;> simp
  | hang => simp
  | defect => simp
  | ub => simp

/-! ## Cases -/

/-- A program that counts and rejects `bad`. -/
def run (tty : Bool) (stdin : String) (args : List String) : Out (List Shown × Bool) :=
  mainProgram (.ok 0) counter stdin.toList tty (args.map (·.toList))

example : run true "" ["-i", "--verbose", "-h"] = .ok ([.unrecognized "--verbose".toList], false) ∧
    run true "" ["-v", "-q", "--help", "-c", "bad", "--nothing"] = .ok ([.usage], true) ∧
    run true "" ["-v", "-i"] = .ok ([.version], true) ∧
    run true "bad\n" ["-q", "-c", "1", "-h"] = .ok ([], true) ∧
    run true "1\n" ["-q", "-c", "1", "bad", "2"] = .ok ([], false) ∧
    run true "1\n" ["-i", "-c", "1"] = .ok ([.banner], true) ∧
    run true "bad\n1\n" ["-q", "-i", "-c", "1"] = .ok ([], false) ∧
    run false "1\n" [] = .ok ([], true) := by decide +kernel

/-! ## As if typed in -/

/-- **C84**, where it holds: commands given as arguments are executed as if they were typed in, if all succeed, and none of
them is `quit`, blank or a comment.

Missing: `C84_quit`, `C84_comment`. -/
theorem C84_as_typed_partial (exec : σ → Str → Out (Fate σ)) (cmds : List Str) (text : Str) (h : TextOf cmds text)
    (hc : ∀ i ∈ cmds, counts i = true ∧ i ≠ "quit".toList) (s t : σ) :
    commandArgs exec cmds s = .ok (.returned t true) ↔ processInput exec s text = .ok (.returned t true) := by
  rw [(C48_arguments exec cmds s).1 t, C48_returns_partial exec cmds text h s t true]
  have : cmds.filter counts = cmds := List.filter_eq_self.2 fun i hi => (hc i hi).1
  rw [this]
  simp only [true_iff]
  exact ⟨fun h => ⟨fun hq => (hc _ hq).2 rfl, h⟩, fun h => h.2⟩

/-- The calculator. -/
def calculator (stdin : String) (args : List String) : Out (List Shown × Bool) :=
  mainProgram (Out.of (initSession ())) (execCommand P 5) stdin.toList true (args.map (·.toList))

/-- **C84 is violated**: commands given as arguments are not executed "as if typed in" (README.md): `quit` does not end
the program, it is evaluated as a variable, and what follows is executed. -/
theorem C84_quit : calculator "" ["-c", "quit", "1+"] = .ok ([], false) ∧
    calculator "quit\n1+\n" ["-q"] = .ok ([], true) := by decide +kernel

/-- **C84 is violated**: comments and blank lines given as arguments are errors. -/
theorem C84_comment : calculator "" ["-c", "# one", "1"] = .ok ([], false) ∧ calculator "" ["-c", "", "1"] = .ok ([], false) ∧
    calculator "# one\n\n1\n" ["-q"] = .ok ([], true) := by decide +kernel

example : calculator "" ["-c", "f(x)=x+1", "f(2)"] = .ok ([], true) ∧ calculator "f(2)\n" ["-q", "-i", "-c", "f(x)=x+1"] = .ok ([], true) := by
  decide +kernel

end Verif.MainProps
