import Verif.Props.Main
import Verif.Props.Transcript

/-!
# What the whole program writes (C91, C92)
-/

namespace Verif.TranscriptProps
open Verif CommandSpec TranscriptSpec MainProps
variable {V E ρ σ : Type}

/-! ## The same as without output -/

theorem args_sound {exec : σ → Str → Out (Fate σ × Said)} {exec' : σ → Str → Out (Fate σ)}
    (he : ∀ s i f said, exec s i = .ok (f, said) → exec' s i = .ok f) :
    ∀ (as : List Str) (i : Nat) (s : σ) (before : Said) (f : Fate σ) (said : Said),
      argsSay exec as i s before = .ok (f, said) → commandArgs exec' as s = .ok f := by
  intro as
  induction as with
  | nil =>
    intro i s before f said h
    cases h
    rfl
  | cons a as ih =>
    intro i s before f said h
    rw [argsSay] at h
    rw [commandArgs]
    obtain ⟨⟨g, more⟩, h1, h⟩ := Out.bind_eq_ok.1 h
    rw [he _ _ _ _ h1, Out.bind_ok]
    match g, h with
    | .returned s' true, h => exact ih _ _ _ _ _ h
    | .returned s' false, h => cases h; rfl
    | .exited ok, h => cases h; rfl

/-- **C91.** The exit status is the one described in C84. -/
theorem C91_main (notice : Str) (init : Out (σ × Said)) (init' : Out σ) (hi : ∀ s x, init = .ok (s, x) → init' = .ok s)
    (exec : Bool → σ → Str → Out (Fate σ × Said)) (exec' : σ → Str → Out (Fate σ))
    (he : ∀ inter s i f said, exec inter s i = .ok (f, said) → exec' s i = .ok f) (stdin : Str) (tty : Bool) (args : List Str)
    (said : Said) (ok : Bool) (h : mainSays notice init exec stdin tty args = .ok (said, ok)) :
    ∃ shown, mainProgram init' exec' stdin tty args = .ok (shown, ok) := by
  unfold mainSays at h
  unfold mainProgram
  obtain ⟨t, h1, h⟩ := Out.bind_eq_ok.1 h
  obtain ⟨p, h2, h⟩ := Out.bind_eq_ok.1 h
  rw [h1, Out.bind_ok, h2, Out.bind_ok]
  match p, h with
  | .error a, h =>
    simp only [Out.pure_eq, Out.ok.injEq, Prod.mk.injEq] at h
    rw [← h.2]
    exact ⟨_, rfl⟩
  | .ok (f, cmds), h =>
    dsimp only at h ⊢
    split at h
    · rename_i hh
      rw [if_pos hh]
      simp only [Out.pure_eq, Out.ok.injEq, Prod.mk.injEq] at h
      rw [← h.2]
      exact ⟨_, rfl⟩
    · rename_i hh
      rw [if_neg hh]
      split at h
      · rename_i hv
        rw [if_pos hv]
        simp only [Out.pure_eq, Out.ok.injEq, Prod.mk.injEq] at h
        rw [← h.2]
        exact ⟨_, rfl⟩
      · rename_i hv
        rw [if_neg hv]
        obtain ⟨⟨s, more⟩, h3, h⟩ := Out.bind_eq_ok.1 h
        obtain ⟨⟨r, x⟩, h4, h⟩ := Out.bind_eq_ok.1 h
        rw [hi _ _ h3, Out.bind_ok]
        have h5 : runArgs exec' cmds s = .ok r := by
          cases cmds with
          | none => cases h4; rfl
          | some cmds => exact args_sound (he false) _ _ _ _ _ _ h4
        rw [h5, Out.bind_ok]
        have h6 : finishMain exec' stdin (cmds.isSome && !f.interactive) r = .ok ok := by
          cases r with
          | exited b => cases h; rfl
          | returned s' b =>
            rw [finishSays] at h
            rw [finishMain]
            split at h
            · rename_i hs
              rw [if_pos hs]
              cases h
              rfl
            · rename_i hs
              rw [if_neg hs]
              obtain ⟨⟨g, y⟩, h6, h⟩ := Out.bind_eq_ok.1 h
              have h7 : processInput exec' s' stdin = .ok g := input_sound (he tty) h6
              rw [h7, Out.bind_ok]
              cases g <;> (cases h; rfl)
        rw [h6]
        exact ⟨_, rfl⟩

/-! ## Commands as arguments -/

theorem args_talk {exec : σ → Str → Out (Fate σ × Said)} {s t : σ} {cmds : List Str} {bs : List Bool} {x : Said}
    (h : Talks exec s cmds t bs x) (hb : ∀ b ∈ bs, b = true) (rest : List Str) : ∀ (i : Nat) (before : Said),
    argsSay exec (cmds ++ rest) i s before = argsSay exec rest (i + cmds.length) t (before.then x) := by
  induction h with
  | nil => intro i before; simp [Said.then]
  | @cons s c s' b cs t bs x y h1 _ ih =>
    intro i before
    have : b = true := hb b (by simp)
    subst this
    rw [List.cons_append, argsSay, h1, Out.bind_ok]
    dsimp only
    rw [ih (fun b hm => hb b (by simp [hm]))]
    congr 1
    · simp; omega
    · simp [Said.then]

/-- The program without help and version. -/
theorem main_says (notice : Str) (init : Out (σ × Said)) (exec : Bool → σ → Str → Out (Fate σ × Said)) (stdin : Str) (tty : Bool)
    (pre rest : List Str) (cmds : Option (List Str)) (h : Switches pre) (hr : Rest rest cmds) (hh : ¬ Has .help pre)
    (hv : ¬ Has .version pre) :
    ∃ f : Flags, (f.interactive = true ↔ Has .interactive pre) ∧ (f.quiet = true ↔ Has .quiet pre) ∧
      mainSays notice init exec stdin tty (pre ++ rest) = (do
        let (s, more) ← init
        let r ← runArgsSay (exec false) cmds s ((helloSays notice f cmds tty).then more)
        finishSays tty (exec tty) stdin (cmds.isSome && !f.interactive) r) := by
  obtain ⟨t, h1, ht⟩ := switch_trie
  obtain ⟨f, h2, h3⟩ := parseArgs_rest ht h hr
  have e1 : f.help = false := by
    have := h3 .help (by decide)
    simp only [flag] at this
    cases he : f.help
    · rfl
    · exact absurd (this.1 he) hh
  have e2 : f.version = false := by
    have := h3 .version (by decide)
    simp only [flag] at this
    cases he : f.version
    · rfl
    · exact absurd (this.1 he) hv
  refine ⟨f, h3 .interactive (by decide), h3 .quiet (by decide), ?_⟩
  unfold mainSays
  rw [h1, Out.of_ok, Out.bind_ok, h2, Out.of_ok, Out.bind_ok]
  dsimp only
  rw [e1, e2]
  rfl

/-- The beginning of the program, if there are commands and it does not become interactive. -/
theorem main_commands (notice : Str) (exec : Bool → σ → Str → Out (Fate σ × Said)) (s : σ) (x0 : Said) (stdin : Str) (tty : Bool)
    (pre cmds : List Str) (c : Str) (hp : Switches pre) (hc : c ∈ names .commands) (hh : ¬ Has .help pre) (hv : ¬ Has .version pre)
    (hi : ¬ Has .interactive pre) :
    mainSays notice (.ok (s, x0)) exec stdin tty (pre ++ c :: cmds) =
      (argsSay (exec false) cmds 1 s x0 >>= finishSays tty (exec tty) stdin true) := by
  obtain ⟨f, h1, -, h2⟩ := main_says notice (.ok (s, x0)) exec stdin tty pre (c :: cmds) (some cmds) hp (.commands hc) hh hv
  have e3 : f.interactive = false := by
    cases he : f.interactive
    · rfl
    · exact absurd (h1.1 he) hi
  have e4 : (helloSays notice f (some cmds) tty).then x0 = x0 := by
    simp [helloSays, e3, Said.then]
  rw [h2, Out.bind_ok]
  dsimp only
  rw [e4, e3]
  rfl

/-- **C91.** Commands given as arguments that all succeed: the program writes what they write, one after the other, and nothing
else; it ends with success. -/
theorem C91_commands (notice : Str) (exec : Bool → σ → Str → Out (Fate σ × Said)) (s t : σ) (x0 x : Said) (stdin : Str) (tty : Bool)
    (pre cmds : List Str) (c : Str) (hp : Switches pre) (hc : c ∈ names .commands) (hh : ¬ Has .help pre) (hv : ¬ Has .version pre)
    (hi : ¬ Has .interactive pre) (bs : List Bool) (h : Talks (exec false) s cmds t bs x) (hb : ∀ b ∈ bs, b = true) :
    mainSays notice (.ok (s, x0)) exec stdin tty (pre ++ c :: cmds) = .ok (⟨x0.out ++ x.out, x0.err ++ x.err⟩, true) := by
  have h1 := args_talk h hb [] 1 x0
  rw [List.append_nil, argsSay] at h1
  rw [main_commands notice exec s x0 stdin tty pre cmds c hp hc hh hv hi, h1]
  rfl

/-- **C92.** The first command that fails ends the program with failure; its number is written to standard error behind its own
report, and the commands after it are not executed. -/
theorem C92_commands (notice : Str) (exec : Bool → σ → Str → Out (Fate σ × Said)) (s t t' : σ) (x0 x y : Said) (stdin : Str) (tty : Bool)
    (pre before after : List Str) (i c : Str) (hp : Switches pre) (hc : c ∈ names .commands) (hh : ¬ Has .help pre)
    (hv : ¬ Has .version pre) (hi : ¬ Has .interactive pre) (bs : List Bool) (h : Talks (exec false) s before t bs x)
    (hb : ∀ b ∈ bs, b = true) (hf : exec false t i = .ok (.returned t' false, y)) :
    mainSays notice (.ok (s, x0)) exec stdin tty (pre ++ c :: (before ++ i :: after)) = .ok (⟨x0.out ++ x.out ++ y.out,
      x0.err ++ x.err ++ y.err ++ ("Error occurred in command ".toList ++ (toString (before.length + 1)).toList ++ "\n".toList)⟩, false) := by
  have h1 := args_talk h hb (i :: after) 1 x0
  rw [argsSay, hf, Out.bind_ok] at h1
  rw [main_commands notice exec s x0 stdin tty pre _ c hp hc hh hv hi, h1]
  have e : (toString (before.length + 1)).toList = Nat.toDigits 10 (1 + before.length) := by
    rw [Nat.add_comm]
    simp [toString, Nat.repr]
  rw [e]
  simp [Said.then, finishSays]

/-! ## Standard input -/

/-- **C91.** Without commands the program writes the notice (on a terminal, unless it is to be quiet), what the commands of its input
write, one after the other, and on a terminal a newline at the end of the input. -/
theorem C91_stdin (notice : Str) (exec : Bool → σ → Str → Out (Fate σ × Said)) (s t : σ) (x0 x : Said) (stdin : Str) (lines : List Str)
    (ht : TextOf lines stdin) (tty : Bool) (args : List Str) (hp : Switches args) (hh : ¬ Has .help args) (hv : ¬ Has .version args)
    (bs : List Bool) (hq : "quit".toList ∉ lines) (h : Talks (exec tty) s (lines.filter counts) t bs x) :
    ∃ hello end_, (tty = false → hello = [] ∧ end_ = []) ∧ (tty = true → end_ = ['\n'] ∧ (Has .quiet args → hello = []) ∧
        (¬ Has .quiet args → notice <+: hello)) ∧
      mainSays notice (.ok (s, x0)) exec stdin tty args =
        .ok (⟨hello ++ x0.out ++ x.out ++ end_, x0.err ++ x.err⟩, bs.all id) := by
  obtain ⟨f, -, h1, h2⟩ := main_says notice (.ok (s, x0)) exec stdin tty args [] none hp .none hh hv
  rw [List.append_nil] at h2
  have h3 := (C91_input tty (exec tty) lines stdin ht s t (bs.all id) _).2 ⟨hq, bs, x, h, by simp, rfl⟩
  refine ⟨(helloSays notice f none tty).out, if tty then ['\n'] else [], ?_, ?_, ?_⟩
  · rintro rfl
    simp [helloSays]
  · rintro rfl
    refine ⟨rfl, fun hq => ?_, fun hq => ?_⟩
    · simp [helloSays, h1.2 hq]
    · have : f.quiet = false := by
        cases he : f.quiet
        · rfl
        · exact absurd (h1.1 he) hq
      simp [helloSays, this, bannerText]
  · rw [h2, Out.bind_ok]
    simp only [runArgsSay, Out.bind_ok, finishSays, Option.isSome_none, Bool.false_and, Bool.false_eq_true, if_false]
    rw [h3]
    simp [Said.then, helloSays]

/-! ## The exit status -/

theorem lines_verdict {K : Program V (E × Nat) ρ} {T : Texts V E ρ} {H : HelpEval V} {d : Nat} {inter : Bool} (lines : List Str)
    (hn : ∀ l ∈ lines, nul ∉ l ∧ firstCommand l commandTable ≠ some .load) : ∀ (s : Session V ρ) (res : Bool) (before : Said)
    (f : Fate (Session V ρ)) (said : Said), (res = true ↔ before.err = []) →
    linesSay inter (execSays K T H d inter) (lines.map fun l => l ++ ['\n']) s res before = .ok (f, said) →
    (status f = true ↔ said.err = []) := by
  induction lines with
  | nil =>
    intro s res before f said hb h
    cases h
    simpa [Said.then, status] using hb
  | cons l ls ih =>
    intro s res before f said hb h
    have hl := hn l (by simp)
    have ih := ih fun x hx => hn x (by simp [hx])
    rw [List.map_cons, linesSay_cons _ _ _ _ _ hl.1] at h
    split at h
    · cases h
      exact hb
    · split at h
      · obtain ⟨⟨g, x⟩, h1, h⟩ := Out.bind_eq_ok.1 h
        obtain ⟨s', ok, rfl⟩ := C92_returns K T H d inter s l hl.2 g x h1
        have h2 := (C92_command_partial K T H d inter s s' l hl.2 ok x h1).1
        refine ih _ _ _ _ _ ?_ h
        simp only [Said.then, List.append_eq_nil_iff, Bool.and_eq_true]
        rw [hb, h2]
      · exact ih _ _ _ _ _ hb h

theorem args_verdict {K : Program V (E × Nat) ρ} {T : Texts V E ρ} {H : HelpEval V} {d : Nat} {inter : Bool} (cmds : List Str)
    (hn : ∀ c ∈ cmds, firstCommand c commandTable ≠ some .load) : ∀ (i : Nat) (s : Session V ρ) (before : Said)
    (f : Fate (Session V ρ)) (said : Said), before.err = [] →
    argsSay (execSays K T H d inter) cmds i s before = .ok (f, said) →
    (∃ t, f = .returned t true ∧ said.err = []) ∨ (f = .exited false ∧ said.err ≠ []) := by
  induction cmds with
  | nil =>
    intro i s before f said hb h
    cases h
    exact .inl ⟨s, rfl, hb⟩
  | cons c cs ih =>
    intro i s before f said hb h
    rw [argsSay] at h
    obtain ⟨⟨g, x⟩, h1, h⟩ := Out.bind_eq_ok.1 h
    obtain ⟨s', ok, rfl⟩ := C92_returns K T H d inter s c (hn c (by simp)) g x h1
    have h2 := (C92_command_partial K T H d inter s s' c (hn c (by simp)) ok x h1).1
    cases ok with
    | true =>
      exact ih (fun x hx => hn x (by simp [hx])) _ _ _ _ _ (by simp [Said.then, hb, h2.1 rfl]) h
    | false =>
      simp only [Out.pure_eq, Out.ok.injEq, Prod.mk.injEq] at h
      obtain ⟨rfl, rfl⟩ := h
      refine .inr ⟨rfl, ?_⟩
      simp only [Said.then]
      intro e
      rw [List.append_eq_nil_iff] at e
      exact absurd e.2 (by simp)

/-- **C92** (partial: no file is loaded).  However the program is called, with whatever commands and input: its exit status is success if
and only if nothing was written to standard error.

Missing: `load` (`C92_load`); `init_commands` has found its rules. -/
theorem C92_main_partial (K : Program V (E × Nat) ρ) (T : Texts V E ρ) (H : HelpEval V) (d : Nat) (s : Session V ρ) (x0 : Said)
    (h0 : x0.err = []) (stdin : Str) (lines : List Str) (ht : TextOf lines stdin) (tty : Bool) (args : List Str)
    (hl : ∀ l ∈ lines ++ args, firstCommand l commandTable ≠ some .load) (said : Said) (ok : Bool)
    (h : mainSays T.notice (.ok (s, x0)) (execSays K T H d) stdin tty args = .ok (said, ok)) : ok = true ↔ said.err = [] := by
  obtain ⟨pre, rest, rfl, hp, hr⟩ := C84_cases args
  rcases hr with ⟨cmds, hr⟩ | ⟨a, more, rfl, ha⟩
  · by_cases hh : Has .help pre
    · obtain ⟨t, h1, ht⟩ := switch_trie
      obtain ⟨f, h2, h3⟩ := parseArgs_rest ht hp hr
      have e1 : f.help = true := (h3 .help (by decide)).2 hh
      unfold mainSays at h
      rw [h1, Out.of_ok, Out.bind_ok, h2, Out.of_ok, Out.bind_ok] at h
      dsimp only at h
      rw [if_pos e1] at h
      simp only [Out.pure_eq, Out.ok.injEq, Prod.mk.injEq] at h
      rw [← h.1, ← h.2]
      simp
    · by_cases hv : Has .version pre
      · obtain ⟨t, h1, ht⟩ := switch_trie
        obtain ⟨f, h2, h3⟩ := parseArgs_rest ht hp hr
        have e1 : ¬ f.help = true := fun e => hh ((h3 .help (by decide)).1 e)
        have e2 : f.version = true := (h3 .version (by decide)).2 hv
        unfold mainSays at h
        rw [h1, Out.of_ok, Out.bind_ok, h2, Out.of_ok, Out.bind_ok] at h
        dsimp only at h
        rw [if_neg e1, if_pos e2] at h
        simp only [Out.pure_eq, Out.ok.injEq, Prod.mk.injEq] at h
        rw [← h.1, ← h.2]
        simp
      · obtain ⟨f, -, -, h2⟩ := main_says T.notice (.ok (s, x0)) (execSays K T H d) stdin tty pre rest cmds hp hr hh hv
        rw [h2, Out.bind_ok] at h
        obtain ⟨⟨r, x⟩, h3, h⟩ := Out.bind_eq_ok.1 h
        have hb : ((helloSays T.notice f cmds tty).then x0).err = [] := by simp [helloSays, Said.then, h0]
        have h4 : (∃ t, r = .returned t true ∧ x.err = []) ∨ (r = .exited false ∧ x.err ≠ []) := by
          cases hr with
          | none =>
            cases h3
            exact .inl ⟨s, rfl, hb⟩
          | commands hc =>
            exact args_verdict _ (fun c hc => hl c (by simp [hc])) _ _ _ _ _ hb h3
        rcases h4 with ⟨t, rfl, h4⟩ | ⟨rfl, h4⟩
        · rw [finishSays] at h
          split at h
          · cases h
            simp [h4]
          · obtain ⟨⟨g, y⟩, h5, h⟩ := Out.bind_eq_ok.1 h
            unfold inputSays at h5
            rw [ht.1, RuleFileProps.getlines_unlines _ fun l hl => (ht.2 l hl).1] at h5
            have h6 := lines_verdict lines (fun l hm => ⟨(ht.2 l hm).2, hl l (by simp [hm])⟩) _ _ _ _ _ (by simp) h5
            cases g <;>
            · simp only [Out.pure_eq, Out.ok.injEq, Prod.mk.injEq] at h
              obtain ⟨rfl, rfl⟩ := h
              simpa [Said.then, h4, status] using h6
        · cases h
          simp [h4]
  · obtain ⟨t, h1, ht⟩ := switch_trie
    obtain ⟨f, h2, -⟩ := parseArgs_skip ht pre (a :: more) hp {}
    unfold mainSays at h
    rw [h1, Out.of_ok, Out.bind_ok, h2, parseArgs, parseArg_other ht ha] at h
    simp only [Res.bind_ok, Res.pure_eq, Out.of_ok, Out.bind_ok, Out.pure_eq, Out.ok.injEq, Prod.mk.injEq] at h
    rw [← h.1, ← h.2]
    simp only [Bool.false_eq_true, false_iff]
    intro e
    simp only [List.append_eq_nil_iff] at e
    exact absurd e.1.2 (by decide)

end Verif.TranscriptProps
