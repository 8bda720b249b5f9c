import Verif.Spec.Transcript
import Verif.Lemmas.Transcript
import Verif.Props.Commands

/-!
# What is written to standard output and standard error (C91, C92)
-/

namespace Verif.TranscriptProps
open Verif CommandSpec TranscriptSpec
variable {V E ρ σ : Type}

/-! ## Single commands -/

/-- What a single command other than `load` does. -/
theorem command_sound {K : Program V (E × Nat) ρ} {T : Texts V E ρ} {H : HelpEval V} {d : Nat} {inter : Bool} {s : Session V ρ}
    {input : Str} {c : Command} (hc : firstCommand input commandTable = some c) (hl : c ≠ .load) {f : Fate (Session V ρ)} {said : Said}
    (h : execSays K T H d inter s input = .ok (f, said)) :
    ∃ s' ok, f = .returned s' ok ∧ Verdict ok said ∧ (inter = false ∨ (c ≠ .definition ∧ c ≠ .clear) → said.out = answer K T H inter s input c) := by
  cases d with
  | zero => cases h
  | succ d =>
    rw [execSays, hc] at h
    cases c with
    | load => exact absurd rfl hl
    | help =>
      dsimp only at h
      rw [runSays] at h
      split at h
      · cases h
      · rename_i code hcode
        obtain ⟨text, h1, h⟩ := Out.bind_eq_ok.1 h
        cases h
        refine ⟨_, _, rfl, .inl ⟨rfl, rfl⟩, fun _ => ?_⟩
        rw [answer, hcode]
        dsimp only
        rw [h1]
    | table =>
      obtain ⟨⟨s1, ok, sd⟩, h1, h⟩ := Out.bind_eq_ok.1 h
      cases h
      obtain ⟨-, e1, o, e2, e3⟩ := table_sound h1
      refine ⟨_, _, rfl, e1, fun _ => ?_⟩
      rw [answer, e2]
      dsimp only
      rw [e3]
      cases o <;> rfl
    | definition =>
      obtain ⟨⟨s1, ok, sd⟩, h1, h⟩ := Out.bind_eq_ok.1 h
      cases h
      obtain ⟨-, e1, e2⟩ := definition_sound h1
      refine ⟨_, _, rfl, e1, ?_⟩
      rintro (hi | hi)
      · exact e2 hi
      · exact absurd rfl hi.1
    | clear =>
      obtain ⟨⟨s1, ok, sd⟩, h1, h⟩ := Out.bind_eq_ok.1 h
      cases h
      obtain ⟨-, e1, e2⟩ := clear_sound (Out.of_eq_ok.1 h1)
      refine ⟨_, _, rfl, e1, ?_⟩
      rintro (hi | hi)
      · exact e2 hi
      · exact absurd rfl hi.2
    | evaluation =>
      obtain ⟨⟨s1, ok, sd⟩, h1, h⟩ := Out.bind_eq_ok.1 h
      cases h
      obtain ⟨-, e1, o, e2, e3⟩ := evaluation_sound h1
      refine ⟨_, _, rfl, e1, fun _ => ?_⟩
      rw [answer, e2]
      dsimp only
      rw [e3]
      cases o <;> rfl

/-- **C91.** Writing changes nothing: in both modes a command has the effect and the status it has without. -/
theorem C91_same (K : Program V (E × Nat) ρ) (T : Texts V E ρ) (H : HelpEval V) (d : Nat) (inter : Bool) (s : Session V ρ) (input : Str)
    (f : Fate (Session V ρ)) (said : Said) (h : execSays K T H d inter s input = .ok (f, said)) :
    execCommand K d s input = .ok f := exec_sound d inter s input f said h

/-- **C91.** If the program is not interactive, a command writes nothing to standard output but its answer; definitions and the
removal of functions write nothing. -/
theorem C91_answers (K : Program V (E × Nat) ρ) (T : Texts V E ρ) (H : HelpEval V) (d : Nat) (s : Session V ρ) (input : Str) (c : Command)
    (hc : firstCommand input commandTable = some c) (hl : c ≠ .load) (f : Fate (Session V ρ)) (said : Said)
    (h : execSays K T H d false s input = .ok (f, said)) : said.out = answer K T H false s input c := by
  obtain ⟨-, -, -, -, h⟩ := command_sound hc hl h
  exact h (.inl rfl)

/-- **C92** (partial: commands other than `load`).  A command succeeds if and only if nothing is written to standard error.  If it
fails, complete lines are written there, and nothing to standard output.

Missing: `load` (`C92_load`). -/
theorem C92_command_partial (K : Program V (E × Nat) ρ) (T : Texts V E ρ) (H : HelpEval V) (d : Nat) (inter : Bool) (s s' : Session V ρ)
    (input : Str) (hl : firstCommand input commandTable ≠ some .load) (ok : Bool) (said : Said)
    (h : execSays K T H d inter s input = .ok (.returned s' ok, said)) :
    (ok = true ↔ said.err = []) ∧ WholeLines said.err ∧ (ok = false → said.out = []) := by
  obtain ⟨c, hc, -⟩ := CommandProps.C47_total (V := V) (ε := E × Nat) (ρ := ρ) input
  obtain ⟨s1, ok1, e, h1, -⟩ := command_sound hc (fun e => hl (by rw [hc, e])) h
  cases e
  rcases h1 with ⟨rfl, h1⟩ | ⟨rfl, ⟨a, h1⟩, h2⟩
  · exact ⟨by simp [h1], .inl h1, by simp⟩
  · refine ⟨by simp [h1], .inr (by rw [h1]; simp), fun _ => h2⟩

/-- A command other than `load` does not end the program. -/
theorem C92_returns (K : Program V (E × Nat) ρ) (T : Texts V E ρ) (H : HelpEval V) (d : Nat) (inter : Bool) (s : Session V ρ)
    (input : Str) (hl : firstCommand input commandTable ≠ some .load) (f : Fate (Session V ρ)) (said : Said)
    (h : execSays K T H d inter s input = .ok (f, said)) : ∃ s' ok, f = .returned s' ok := by
  obtain ⟨c, hc, -⟩ := CommandProps.C47_total (V := V) (ε := E × Nat) (ρ := ρ) input
  obtain ⟨s1, ok1, e, -⟩ := command_sound hc (fun e => hl (by rw [hc, e])) h
  exact ⟨s1, ok1, e⟩

/-! ## Texts -/

theorem linesSay_cons (inter : Bool) (exec : σ → Str → Out (Fate σ × Said)) (s : σ) (res : Bool) (before : Said) {l : Str}
    (h : nul ∉ l) (ls : List Str) :
    linesSay inter exec ((l ++ ['\n']) :: ls) s res before =
      if l = quitCommand then .ok (.exited res, before)
      else if counts l then exec s l >>= fun r => match r with
        | (.returned s' ok, more) => linesSay inter exec ls s' (res && ok) (before.then more)
        | (.exited ok, more) => .ok (.exited ok, before.then more)
      else linesSay inter exec ls s res before := by
  rw [linesSay, inputOf_line h]
  simp only [Out.of_ok, Out.bind_ok]
  split
  · rfl
  · by_cases hc : counts l
    · have : ¬ (l.isEmpty || l.head? == some '#') = true := by
        simp [counts] at hc ⊢
        exact hc
      rw [if_neg this, if_pos hc]
      rfl
    · have : (l.isEmpty || l.head? == some '#') = true := by
        simp only [counts] at hc
        cases h1 : l.isEmpty <;> cases h2 : l.head? == some '#' <;> simp_all
      rw [if_pos this, if_neg hc]

theorem linesSay_returned (inter : Bool) (exec : σ → Str → Out (Fate σ × Said)) (lines : List Str) (hn : ∀ l ∈ lines, nul ∉ l)
    (s t : σ) (res r : Bool) (before said : Said) :
    linesSay inter exec (lines.map fun l => l ++ ['\n']) s res before = .ok (.returned t r, said) ↔
      quitCommand ∉ lines ∧ ∃ bs x, Talks exec s (lines.filter counts) t bs x ∧ r = (res && bs.all id) ∧
        said = ⟨before.out ++ x.out ++ whisper inter ['\n'], before.err ++ x.err⟩ := by
  induction lines generalizing s res before with
  | nil =>
    simp only [List.map_nil, linesSay, Out.ok.injEq, Prod.mk.injEq, Fate.returned.injEq, List.not_mem_nil, not_false_eq_true,
      true_and, List.filter_nil]
    constructor
    · rintro ⟨⟨rfl, rfl⟩, rfl⟩
      exact ⟨[], _, .nil _, by simp, by simp [Said.then]⟩
    · rintro ⟨bs, x, hr, h, rfl⟩
      cases hr
      exact ⟨⟨rfl, by simpa using h.symm⟩, by simp [Said.then]⟩
  | cons l ls ih =>
    rw [List.map_cons, linesSay_cons inter exec s res before (hn l (by simp))]
    have ih := ih (fun l hl => hn l (by simp [hl]))
    split
    · rename_i hq
      simp [hq]
    · rename_i hq
      split
      · rename_i hc
        rw [Out.bind_eq_ok]
        constructor
        · rintro ⟨⟨f, more⟩, h1, h2⟩
          cases f with
          | exited => cases h2
          | returned s' ok =>
            obtain ⟨h3, bs, x, h4, h5, h6⟩ := (ih _ _ _).1 h2
            refine ⟨by simp [h3, Ne.symm hq], ok :: bs, ⟨more.out ++ x.out, more.err ++ x.err⟩, ?_, by simp [h5, Bool.and_assoc], ?_⟩
            · rw [List.filter_cons_of_pos hc]
              exact .cons h1 h4
            · rw [h6]; simp [Said.then]
        · rintro ⟨h3, bs, x, h4, h5, h6⟩
          rw [List.filter_cons_of_pos hc] at h4
          cases h4 with
          | cons h1 h4 =>
            refine ⟨_, h1, (ih _ _ _).2 ⟨fun h => h3 (by simp [h]), _, _, h4, ?_, ?_⟩⟩
            · simpa [Bool.and_assoc] using h5
            · rw [h6]; simp [Said.then]
      · rename_i hc
        rw [ih, List.filter_cons_of_neg hc]
        simp [Ne.symm hq]

/-- **C91.** A text of complete lines without NUL characters and without `quit` writes what its commands write, one after the other,
and a newline at the end in interactive mode.  No prompt is written, and nothing for blank lines and comments. -/
theorem C91_input (inter : Bool) (exec : σ → Str → Out (Fate σ × Said)) (lines : List Str) (text : Str) (h : TextOf lines text)
    (s t : σ) (r : Bool) (said : Said) :
    inputSays inter exec s text = .ok (.returned t r, said) ↔
      "quit".toList ∉ lines ∧ ∃ bs x, Talks exec s (lines.filter counts) t bs x ∧ (r = true ↔ ∀ b ∈ bs, b = true) ∧
        said = ⟨x.out ++ (if inter then ['\n'] else []), x.err⟩ := by
  unfold inputSays
  rw [h.1, RuleFileProps.getlines_unlines _ fun l hl => (h.2 l hl).1,
    linesSay_returned inter exec lines fun l hl => (h.2 l hl).2]
  refine and_congr_right fun _ => exists_congr fun bs => exists_congr fun x => and_congr_right fun _ => ?_
  rw [Bool.true_and]
  refine and_congr ?_ (by simp [whisper])
  constructor
  · rintro rfl; simp
  · intro hb
    rw [Bool.eq_iff_iff, hb]
    simp

theorem talks_verdict {K : Program V (E × Nat) ρ} {T : Texts V E ρ} {H : HelpEval V} {d : Nat} {inter : Bool} {s t : Session V ρ}
    {inputs : List Str} {bs : List Bool} {x : Said} (h : Talks (execSays K T H d inter) s inputs t bs x)
    (hl : ∀ i ∈ inputs, firstCommand i commandTable ≠ some .load) : (∀ b ∈ bs, b = true) ↔ x.err = [] := by
  induction h with
  | nil => simp
  | cons h1 _ ih =>
    have h2 := (C92_command_partial K T H d inter _ _ _ (hl _ (by simp)) _ _ h1).1
    have h3 := ih fun i hi => hl i (by simp [hi])
    simp only [List.mem_cons, forall_eq_or_imp, List.append_eq_nil_iff]
    rw [h2, h3]

/-- **C92** (partial: no file is loaded).  The status of a text tells whether something was written to standard error. -/
theorem C92_status_partial (K : Program V (E × Nat) ρ) (T : Texts V E ρ) (H : HelpEval V) (d : Nat) (inter : Bool) (lines : List Str)
    (text : Str) (ht : TextOf lines text) (hl : ∀ l ∈ lines, firstCommand l commandTable ≠ some .load) (s t : Session V ρ) (r : Bool)
    (said : Said) (h : inputSays inter (execSays K T H d inter) s text = .ok (.returned t r, said)) : r = true ↔ said.err = [] := by
  obtain ⟨-, bs, x, h1, h2, rfl⟩ := (C91_input inter _ lines text ht s t r said).1 h
  rw [h2]
  show _ ↔ x.err = []
  exact talks_verdict h1 fun i hi => hl i (List.mem_of_mem_filter hi)

/-! ## Files -/

/-- What `load` writes, whatever the mode. -/
theorem load_says {K : Program V (E × Nat) ρ} {T : Texts V E ρ} {H : HelpEval V} {d : Nat} {inter : Bool} {s : Session V ρ} {input : Str}
    (hc : firstCommand input commandTable = some .load) {f : Fate (Session V ρ)} {said : Said}
    (h : execSays K T H (d + 1) inter s input = .ok (f, said)) :
    loadSays inter K T (execSays K T H d false) s input = .ok (f, said) := by
  rw [execSays, hc] at h
  exact h

/-- **C91.** Loading a file of complete lines writes what its commands write if the program is not interactive, also if it is. -/
theorem C91_load (K : Program V (E × Nat) ρ) (T : Texts V E ρ) (H : HelpEval V) (d : Nat) (inter : Bool) (s t : Session V ρ)
    (p text : Str) (lines : List Str) (he : '=' ∉ p) (hp : ¬ "simplification ".toList <+: p) (hf : K.files p = some text)
    (ht : TextOf lines text) (r : Bool) (said : Said) :
    execSays K T H (d + 1) inter s ("load ".toList ++ p) = .ok (.returned t r, said) ↔
      r = true ∧ "quit".toList ∉ lines ∧ ∃ bs, Talks (execSays K T H d false) s (lines.filter counts) t bs said := by
  have hc : firstCommand ("load ".toList ++ p) commandTable = some .load :=
    (CommandProps.C47_documented_partial _).1 .load (.load p) fun h => by
      rw [List.mem_append] at h
      rcases h with h | h
      · exact absurd h (by decide)
      · exact absurd h he
  have hb : ¬ beginsWith loadSimpCommand ("load ".toList ++ p) = true := by
    rw [StringProps.C55_begins]
    rintro ⟨a, ha⟩
    apply hp
    have : loadSimpCommand = "load ".toList ++ "simplification ".toList := by decide
    rw [this, List.append_assoc] at ha
    exact ⟨a, (List.append_cancel_left ha).symm⟩
  rw [execSays, hc]
  simp only [runSays, loadSays]
  rw [if_neg hb]
  have : ("load ".toList ++ p).drop loadCommand.length = p := rfl
  rw [this, hf]
  simp only
  rw [Out.bind_eq_ok]
  constructor
  · rintro ⟨⟨g, x⟩, h1, h2⟩
    cases g with
    | exited ok => cases h2
    | returned s' ok =>
      cases h2
      obtain ⟨h3, bs, y, h4, -, rfl⟩ := (C91_input false _ lines text ht _ _ _ _).1 h1
      exact ⟨rfl, h3, bs, by simpa using h4⟩
  · rintro ⟨rfl, h3, bs, h4⟩
    exact ⟨(.returned t (bs.all id), said), (C91_input false _ lines text ht _ _ _ _).2 ⟨h3, bs, said, h4, by simp, by simp⟩, rfl⟩

/-- **C91.** The standard output of a program that is not interactive is made of the answers to its commands, in order; files
count as their lines (files of complete lines are assumed). -/
theorem C91_script (K : Program V (E × Nat) ρ) (T : Texts V E ρ) (H : HelpEval V)
    (hfiles : ∀ p text, K.files p = some text → ∃ lines, TextOf lines text) (d : Nat) :
    ∀ (s t : Session V ρ) (inputs : List Str) (bs : List Bool) (x : Said), Talks (execSays K T H d false) s inputs t bs x →
      Script K T H s inputs t x.out := by
  induction d with
  | zero =>
    intro s t inputs bs x h
    cases h with
    | nil => exact .nil _
    | cons h1 _ => cases h1
  | succ d ih =>
    intro s t inputs bs x h
    induction h with
    | nil => exact .nil _
    | @cons s i s' b is t bs x y h1 _ ih2 =>
      obtain ⟨c, hc, -⟩ := CommandProps.C47_total (V := V) (ε := E × Nat) (ρ := ρ) i
      by_cases hl : c = .load
      · subst hl
        have h2 := load_says hc h1
        have hlooks := ((CommandProps.C47_exact i .load).1 hc).1
        obtain ⟨p, rfl⟩ : "load ".toList <+: i := hlooks
        unfold loadSays at h2
        split at h2
        · rename_i hb
          rw [StringProps.C55_begins] at hb
          obtain ⟨q, hq⟩ := hb
          rw [hq] at h2 ⊢
          have : (loadSimpCommand ++ q).drop loadSimpCommand.length = q := by simp
          simp only [this] at h2
          obtain ⟨⟨w, ok⟩, h3, h2⟩ := Out.bind_eq_ok.1 h2
          simp only [Out.pure_eq, Out.ok.injEq, Prod.mk.injEq, Fate.returned.injEq] at h2
          obtain ⟨⟨rfl, rfl⟩, rfl⟩ := h2
          have e2 : ((if ok = true then
              ({ out := whisper false ("Successfully loaded simplification (".toList ++
                (toString (T.ruleCount s.world s.ctx q)).toList ++ " rules)\n".toList), err := T.ruleReports s.world s.ctx q } : Said)
              else { err := "File not found or readable\n".toList }).out ++ y.out) = y.out := by
            cases ok <;> rfl
          show Script K T H s (("load simplification ".toList ++ q) :: is) t _
          have e3 := Script.rules (K := K) (T := T) (H := H) (s := s) (p := q) h3 ih2
          dsimp only
          rw [e2]
          exact e3
        · rename_i hb
          have : ("load ".toList ++ p).drop loadCommand.length = p := rfl
          simp only [this] at h2
          split at h2
          · rename_i hf
            simp only [Out.ok.injEq, Prod.mk.injEq, Fate.returned.injEq] at h2
            obtain ⟨⟨rfl, rfl⟩, rfl⟩ := h2
            exact .missing hf ih2
          · rename_i text hf
            obtain ⟨⟨g, z⟩, h3, h2⟩ := Out.bind_eq_ok.1 h2
            cases g with
            | exited ok => cases h2
            | returned s1 ok =>
              simp only [loaded, Out.pure_eq, Out.ok.injEq, Prod.mk.injEq, Fate.returned.injEq] at h2
              obtain ⟨⟨rfl, rfl⟩, rfl⟩ := h2
              obtain ⟨lines, ht⟩ := hfiles p text hf
              obtain ⟨h4, bs', w, h5, -, rfl⟩ := (C91_input false _ lines text ht _ _ _ _).1 h3
              have := ih _ _ _ _ _ h5
              simp only [Bool.false_eq_true, if_false, List.append_nil]
              exact .file hf ht h4 this ih2
      · have e := C91_answers K T H (d + 1) s i c hc hl _ _ h1
        simp only
        rw [e]
        exact .command (C91_same K T H _ _ _ _ _ _ h1) hc hl ih2

end Verif.TranscriptProps
