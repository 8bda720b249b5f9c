import Verif.Lemmas.ParserHeap
import Verif.Lemmas.ParserOwed
import Verif.Props.Parser
import Verif.Props.Ownership

/-!
# C98: the parser and its nodes

`parseHeap` is the parser with nodes in memory.  It does what the parser of
Model/Parser does; on failure it leaves the memory as it was, on success exactly the
nodes of the tree have been added.
-/

namespace Verif.ParserMemoryProps
open OwnershipSpec OperandsSpec ParserProps OwnershipProps
variable {V : Type}

/-- The parser in memory, in terms of the parser on values: its outcome is the same, and
apart from the tree `t` it returns and what else was on the stack (`L`) nothing in memory
has changed. -/
theorem parse_sim (M : Malloc V) (E : Env) (strtod : Str → Option V) (toks : List Str) (m : Mem V) :
    match parseTokens E strtod toks with
    | .ub => parseHeap M true E strtod toks m = .ub
    | .err e k => ∃ m', parseHeap M true E strtod toks m = .ok (.err e k, m') ∧ m'.get = m.get ∧
        m'.vars = m.vars
    | .okUninit => ∃ m', parseHeap M true E strtod toks m = .ok (.okUninit, m') ∧ m'.get = m.get ∧
        m'.vars = m.vars
    | .ok t => ∃ p m' ts ps, parseHeap M true E strtod toks m = .ok (.ok (some p), m') ∧
        Stacked m m' (t :: ts) (p :: ps) ∧ (Usual E → ts = []) := by
  have hinit : StSim m (PState.init : PState V) ⟨m, [], [], false, false⟩ :=
    ⟨⟨[], ⟨rfl, rfl⟩, by simp, by simp, fun _ _ => rfl, rfl⟩, rfl, rfl, rfl⟩
  have hrun := runToks_sim M E strtod (toks := number 0 toks) hinit
  unfold parseTokens parseIdx parseHeap
  cases hr : runToks E strtod (number 0 toks) PState.init with
  | error e =>
    rw [hr] at hrun
    rcases hrun with ⟨rfl, hh⟩ | ⟨x, hh, hx⟩
    · rw [hh]; rfl
    · rw [hh]
      obtain ⟨m', e1, e2, e3⟩ := leave_spec hx true
      cases e with
      | ok t => exact hx.elim
      | ub => exact hx.elim
      | err e k => exact ⟨m', e1, e2, e3⟩
      | okUninit => exact ⟨m', e1, e2, e3⟩
  | ok st =>
    rw [hr] at hrun
    obtain ⟨hs, hh, h⟩ := hrun
    rw [hh]
    simp only [Out.bind_ok]
    unfold finish finishH
    rw [h.params, h.infix', h.ops]
    cases hpa : st.awaitParams with
    | true =>
      simp only [if_true]
      exact leave_spec (r := .err .expectedParamList toks.length) ⟨rfl, _, h.nodes⟩ true
    | false =>
      cases haw : st.awaitInfix with
      | false =>
        simp only [Bool.false_eq_true, if_false, Bool.not_false, if_true]
        exact leave_spec (r := .err .unexpectedEndOfExpr toks.length) ⟨rfl, _, h.nodes⟩ true
      | true =>
        simp only [Bool.false_eq_true, if_false, Bool.not_true]
        have hp := popWhile_sim M (fun _ => true) (ops := st.ops) h.nodes
        cases he : popWhile (fun _ => true) st.nodes st.ops with
        | error e =>
          rw [he] at hp
          rcases hp.ub_or with ⟨rfl, hh⟩ | ⟨x, hh, hx⟩
          · rw [hh]; rfl
          · rw [hh]
            simp only [Out.bind_ok]
            obtain ⟨m', e1, e2, e3⟩ := leave_spec hx.exit true
            cases e with
            | ub => exact hx.elim
            | wrongArity k => exact ⟨m', e1, e2, e3⟩
            | underflow => exact ⟨m', e1, e2, e3⟩
        | ok a =>
          rw [he] at hp
          obtain ⟨⟨b1, b2, b3⟩, hh, hb, hb'⟩ := hp
          obtain ⟨a1, a2⟩ := a
          simp only at hb hb'
          subst hb'
          rw [hh]
          simp only [Out.bind_ok]
          cases b3 with
          | cons d ds =>
            simp only
            exact leave_spec (r := .err .excessOpeningParen toks.length) ⟨rfl, _, hb⟩ true
          | nil =>
            cases a1 with
            | nil =>
              obtain ⟨S, ⟨h1, h2⟩, _⟩ := hb
              subst h1
              rfl
            | cons t ts =>
              obtain ⟨S, hS, hb⟩ := hb
              obtain ⟨p, qs, S1, S2, h1, h2, h3, h4⟩ := hS
              subst h1
              refine ⟨p, b1, ts, qs, rfl, ⟨S, ⟨p, qs, S1, S2, rfl, h2, h3, h4⟩, hb⟩, fun hE => ?_⟩
              have := left_one hE hr hpa haw he
              exact List.length_eq_zero_iff.mp (by simpa using this)

/-- The same if the result is discarded: then the memory is always as it was. -/
theorem C98_discard (M : Malloc V) (E : Env) (strtod : Str → Option V) (toks : List Str) (m : Mem V)
    (h : parseTokens E strtod toks ≠ .ub) :
    ∃ m', parseHeap M false E strtod toks m = .ok (match parseTokens E strtod toks with
      | .err e k => .err e k
      | _ => .ok none, m') ∧ m'.get = m.get ∧ m'.vars = m.vars := by
  have hinit : StSim m (PState.init : PState V) ⟨m, [], [], false, false⟩ :=
    ⟨⟨[], ⟨rfl, rfl⟩, by simp, by simp, fun _ _ => rfl, rfl⟩, rfl, rfl, rfl⟩
  have hrun := runToks_sim M E strtod (toks := number 0 toks) hinit
  unfold parseTokens parseIdx at h ⊢
  unfold parseHeap
  cases hr : runToks E strtod (number 0 toks) PState.init with
  | error e =>
    rw [hr] at hrun h
    rcases hrun with ⟨rfl, hh⟩ | ⟨x, hh, hx⟩
    · exact absurd rfl h
    · rw [hh]
      obtain ⟨m', e1, e2, e3⟩ := leave_spec hx false
      cases e with
      | ok t => exact hx.elim
      | ub => exact hx.elim
      | err e k => exact ⟨m', e1, e2, e3⟩
      | okUninit => exact ⟨m', e1, e2, e3⟩
  | ok st =>
    rw [hr] at hrun h
    obtain ⟨hs, hh, hst⟩ := hrun
    rw [hh]
    simp only [Out.bind_ok] at h ⊢
    unfold finish at h ⊢
    unfold finishH
    rw [hst.params, hst.infix', hst.ops]
    cases hpa : st.awaitParams with
    | true =>
      simp only [if_true]
      exact leave_spec (r := .err .expectedParamList toks.length) ⟨rfl, _, hst.nodes⟩ false
    | false =>
      cases haw : st.awaitInfix with
      | false =>
        simp only [Bool.false_eq_true, if_false, Bool.not_false, if_true]
        exact leave_spec (r := .err .unexpectedEndOfExpr toks.length) ⟨rfl, _, hst.nodes⟩ false
      | true =>
        rw [hpa, haw] at h
        simp only [Bool.false_eq_true, if_false, Bool.not_true] at h ⊢
        have hp := popWhile_sim M (fun _ => true) (ops := st.ops) hst.nodes
        cases he : popWhile (fun _ => true) st.nodes st.ops with
        | error e =>
          rw [he] at hp h
          rcases hp.ub_or with ⟨rfl, hh⟩ | ⟨x, hh, hx⟩
          · exact absurd rfl h
          · rw [hh]
            simp only [Out.bind_ok]
            obtain ⟨m', e1, e2, e3⟩ := leave_spec hx.exit false
            cases e with
            | ub => exact hx.elim
            | wrongArity k => exact ⟨m', e1, e2, e3⟩
            | underflow => exact ⟨m', e1, e2, e3⟩
        | ok a =>
          rw [he] at hp h
          obtain ⟨⟨b1, b2, b3⟩, hh, hb, hb'⟩ := hp
          obtain ⟨a1, a2⟩ := a
          simp only at hb hb'
          subst hb'
          rw [hh]
          simp only [Out.bind_ok]
          cases b3 with
          | cons d ds =>
            simp only
            exact leave_spec (r := .err .excessOpeningParen toks.length) ⟨rfl, _, hb⟩ false
          | nil =>
            cases a1 with
            | nil => exact absurd rfl h
            | cons t ts =>
              obtain ⟨m', e1, e2, e3⟩ := freeNodes_spec hb
              exact ⟨m', by simp [leave, e1], e2, e3⟩

/-- An error leaves the memory as it was: every node that had been allocated has been freed,
once. -/
theorem C98_error (M : Malloc V) (E : Env) (strtod : Str → Option V) (toks : List Str) (m : Mem V)
    {e : PErr} {k : Nat} (h : parseTokens E strtod toks = .err e k) :
    ∃ m', parseHeap M true E strtod toks m = .ok (.err e k, m') ∧ m'.get = m.get ∧ m'.vars = m.vars := by
  have := parse_sim M E strtod toks m
  rw [h] at this
  exact this

/-- So does success without a result (`*out_res` not written). -/
theorem C98_uninit (M : Malloc V) (E : Env) (strtod : Str → Option V) (toks : List Str) (m : Mem V)
    (h : parseTokens E strtod toks = .okUninit) :
    ∃ m', parseHeap M true E strtod toks m = .ok (.okUninit, m') ∧ m'.get = m.get ∧ m'.vars = m.vars := by
  have := parse_sim M E strtod toks m
  rw [h] at this
  exact this

/-- Success adds exactly the nodes of the tree. -/
theorem C98_success (M : Malloc V) (E : Env) (hE : Usual E) (strtod : Str → Option V) (toks : List Str)
    (m : Mem V) {t : Tree V} (h : parseTokens E strtod toks = .ok t) :
    ∃ p m' T, parseHeap M true E strtod toks m = .ok (.ok (some p), m') ∧
      Exchanged m.get m'.get [] t p T ∧ m'.vars = m.vars := by
  have := parse_sim M E strtod toks m
  rw [h] at this
  obtain ⟨p, m', ts, ps, e1, ⟨S, hS, h2, h3, h4, h5⟩, e2⟩ := this
  cases e2 hE
  obtain ⟨q, qs, S1, S2, g1, g2, g3, g4⟩ := hS
  obtain ⟨rfl, rfl⟩ := g4
  cases g1
  simp only [List.append_nil] at g2
  subst g2
  exact ⟨p, m', S, e1, ⟨g3, h2, fun a ha => .inr (h3 a ha), fun a ha => by simp at ha,
    fun a _ ha => h4 a ha⟩, h5⟩

/-- The undefined behaviour of the parser is that of Model/Parser (C14); there is none that
has to do with its nodes, and `free_tree` always comes to an end. -/
theorem C98_defined (M : Malloc V) (keep : Bool) (E : Env) (strtod : Str → Option V) (toks : List Str)
    (m : Mem V) (h : parseTokens E strtod toks ≠ .ub) : ∃ r m', parseHeap M keep E strtod toks m = .ok (r, m') := by
  cases keep with
  | false =>
    obtain ⟨m', e, _⟩ := C98_discard M E strtod toks m h
    exact ⟨_, m', e⟩
  | true =>
    have := parse_sim M E strtod toks m
    cases hp : parseTokens E strtod toks with
    | ub => exact absurd hp h
    | err e k => rw [hp] at this; obtain ⟨m', e1, _⟩ := this; exact ⟨_, m', e1⟩
    | okUninit => rw [hp] at this; obtain ⟨m', e1, _⟩ := this; exact ⟨_, m', e1⟩
    | ok t => rw [hp] at this; obtain ⟨p, m', _, _, e1, _⟩ := this; exact ⟨_, m', e1⟩

theorem usual_of_wf {E : Env} (h : WFEnv E) : Usual E := by
  refine ⟨fun tok pl o ho => ?_⟩
  obtain ⟨h1, h2⟩ := h.op tok pl o ho
  refine ⟨h1, ?_⟩
  unfold HasOperands
  cases hp : o.placement with
  | «prefix» => rw [h2.pre hp]
  | «infix» => rw [(h2.inf hp).1]
  | «postfix» => rw [(h2.post hp).1]
  | function => trivial

/-- The calculator: whatever is typed in, after the parser has run the nodes of the tree are
all that was added to the memory, and after an error nothing was. -/
theorem C98_calculator (M : Malloc V) (c : Ctx) (hc : ArithLike c) (strtod : Str → Option V) (inp : Str)
    (m : Mem V) :
    (∀ t, (parseInput c strtod inp).2 = .ok t →
      ∃ p m' T, parseHeap M true c.env strtod (tokenize c.keywords inp) m = .ok (.ok (some p), m') ∧
        Exchanged m.get m'.get [] t p T ∧ m'.vars = m.vars) ∧
    (∀ e k, (parseInput c strtod inp).2 = .err e k →
      ∃ m', parseHeap M true c.env strtod (tokenize c.keywords inp) m = .ok (.err e k, m') ∧
        m'.get = m.get ∧ m'.vars = m.vars) :=
  ⟨fun _ h => C98_success M _ (usual_of_wf hc.wf) strtod _ m h, fun _ _ h => C98_error M _ strtod _ m h⟩

/-! ## Examples -/

example : Usual demo := usual_of_wf demo_wf

/-- The nodes after a run. -/
def after (r : Out (HRes × Mem Nat)) : Option (HRes × List (Nat × Cell Nat)) :=
  match r with
  | .ok (r, m) => some (r, m.cells)
  | _ => none

def empty : Mem Nat := ⟨[], fun _ => none⟩

/-- `2*3!` takes four nodes. -/
example : after (parseHeap bump true demo digit (toks ["2", "*", "3", "!"]) empty) =
    some (.ok (some 3), [(3, .op (Op.getInfix "*".toList 4 .left) [some 0, some 2] 1),
      (2, .op (Op.getPostfix "!".toList 6) [some 1] 3), (1, .const 3 2), (0, .const 2 0)]) := by
  decide +kernel
example : isTree (parseTokens demo digit (toks ["2", "*", "3", "!"])) = true := by decide +kernel

/-- `2*3! )`, `(2*3!`: they are freed. -/
example : after (parseHeap bump true demo digit (toks ["2", "*", "3", "!", ")"]) empty) =
    some (.err .unexpectedClosingParen 4, []) := by decide +kernel
example : after (parseHeap bump true demo digit (toks ["(", "2", "*", "3", "!"]) empty) =
    some (.err .excessOpeningParen 5, []) := by decide +kernel
example : after (parseHeap bump false demo digit (toks ["2", "*", "3", "!"]) empty) =
    some (.ok none, []) := by decide +kernel

/-- An incomplete node with its children is freed: `sum` as glue operator. -/
example : after (parseHeap bump true (envOf [Op.getFunction "sum".toList .dyn]
    (some (Op.getFunction "sum".toList .dyn))) digit (toks ["1", "(", "2", ")"]) empty) =
    some (.okUninit, []) := by decide +kernel

/-- The hypothesis on the context is needed: with a prefix operator without operands a node
gets lost. -/
theorem C98_lost_witness : after (parseHeap bump true
    (envOf [⟨['-'], 0, .fixed 0, 7, .left, .prefix⟩] none) digit (toks ["-", "1"]) empty) =
    some (.ok (some 1), [(1, .op ⟨['-'], 0, .fixed 0, 7, .left, .prefix⟩ [] 0), (0, .const 1 1)]) := by
  decide +kernel

end Verif.ParserMemoryProps
