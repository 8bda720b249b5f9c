import Verif.Lemmas.ProgramMemory
import Verif.Props.SessionMemory

/-!
# C103: rules in memory, and what is left when the program ends

The comment at `unload_commands` (src/client/commands/commands.c:52-55) says "Frees all resources so that heap is
empty after exit".  In full: for all inputs, `endAt` leads back to the memory from before the program.  This
holds if every rule file that is loaded is well-formed (`C103_program_partial`); the nodes read from any other
file are never freed (`C103_leak`).
-/

namespace Verif.ProgramMemoryProps
open Verif OwnershipSpec MemorySpec EvaluationMemoryProps OwnershipProps
variable {V ε : Type}

/-- `parse_rule` on a rule: its nodes were not in use before, no two of its trees share a node, and there are
no other new nodes. -/
theorem C103_rule (M : Malloc V) {prop : Ctx} (hprop : propCtx = .ok prop) (strtod : Str → Option V) {s : Str}
    {r : RewriteRule V} (h : parseRule (parseEasy prop strtod) s = .ok (some r)) :
    ∃ n, ∀ deep ≥ n, ∀ m : Mem V, ∃ f m', parseRuleAt (parseEasyAt M prop strtod) deep s m = .ok (some f, m') ∧
      FitsRules [r] [f] ∧ Owns m.get (ruleTrees [r]) (ruleRoots [f]) m'.get := by
  obtain ⟨n, hn⟩ := (parseRuleAt_spec (parseEasyAt_parses M (propCtx_usual hprop) strtod) s).1 r h
  refine ⟨n, fun deep hd m => ?_⟩
  obtain ⟨f, m', e1, e2, e3⟩ := hn deep hd m
  refine ⟨f, m', e1, .cons e3 .nil, ?_⟩
  simp only [OwnsP, rulePairs_fst e3, rulePairs_snd e3] at e2
  simpa [ruleTrees, ruleRoots] using e2

/-- `parse_rule` on anything else: the memory is as before. -/
theorem C103_rule_error (M : Malloc V) {prop : Ctx} (hprop : propCtx = .ok prop) (strtod : Str → Option V) {s : Str}
    (h : parseRule (parseEasy prop strtod) s = .ok none) :
    ∃ n, ∀ deep ≥ n, ∀ m : Mem V, ∃ m', parseRuleAt (parseEasyAt M prop strtod) deep s m = .ok (none, m') ∧
      m'.get = m.get := by
  obtain ⟨n, hn⟩ := (parseRuleAt_spec (parseEasyAt_parses M (propCtx_usual hprop) strtod) s).2 h
  exact ⟨n, fun deep hd m => hn deep hd m⟩

/-- `free_rule` gives back the nodes of a rule. -/
theorem C103_free (deep : Nat) {base : Nat → Option (Cell V)} {r : RewriteRule V} {f : LoadedRule} {m : Mem V}
    (hf : FitsPattern r.pattern f.pattern) (ho : Owns base (ruleTrees [r]) (ruleRoots [f]) m.get)
    (hd : ∀ t ∈ ruleTrees [r], calls t ≤ deep) : ∃ m', freeRuleAt deep m f = .ok m' ∧ m'.get = base := by
  have e1 : (rulePairs r f).map (·.1) = ruleTrees [r] := by simp [rulePairs_fst hf, ruleTrees]
  have e2 : (rulePairs r f).map (·.2) = ruleRoots [f] := by simp [rulePairs_snd hf, ruleRoots]
  have ho' : OwnsP base (rulePairs r f ++ []) m.get := by
    rw [List.append_nil]
    unfold OwnsP
    rw [e1, e2]
    exact ho
  have hs : Shallow deep (rulePairs r f) := fun x hx => hd x.1 (by rw [← e1]; exact List.mem_map_of_mem hx)
  obtain ⟨m', k1, k2⟩ := OwnsP.freeTrees ho' hs
  refine ⟨m', ?_, ownsP_nil.1 k2⟩
  rw [freeRuleAt_eq, ← rulePairs_snd hf]
  exact k1

theorem begun {s : Session V Unit} (h : initSession () = .ok s) (m : Mem V) :
    ProgramInMemory m.get ⟨s, ⟨false, fun _ => [], none, none, none⟩⟩ ⟨⟨s.ctx, [], s.hist, m⟩, .start⟩ :=
  ⟨fits_noRules rfl, m.get, [], (owns_simp (fits_noRules rfl)).2 (ownsP_nil.2 rfl), (SessionMemoryProps.started h m).2⟩

/-- Whatever is entered, as long as the rule files are well-formed: the nodes in memory are those from before the
program, those of the rules that are loaded and those of the functions that are defined; and at the end of the
program the memory is as before. -/
theorem C103_program_partial (M : Malloc V) {F : Finder V} {prop : Ctx} (hprop : propCtx = .ok prop)
    {strtod : Str → Option V} (hstr : ∀ tok ∈ patternToks, strtod tok = none)
    {xs : List (Machine V ε × ProgramInput)} (hx : ∀ x ∈ xs, Finds x.1.dbl.eq F ∧ WellFormed prop strtod x.2)
    {s : Session V Unit} {s' : ValueProgram V} (hi : initSession () = .ok s)
    (h : programOn prop strtod ⟨s, ⟨false, fun _ => [], none, none, none⟩⟩ xs = .ok s') :
    ∃ n, ∀ deep ≥ n, ∀ m : Mem V, ∃ sm m',
      programAt M F deep prop strtod ⟨⟨s.ctx, [], s.hist, m⟩, .start⟩ xs = .ok sm ∧ ProgramInMemory m.get s' sm ∧
      endAt deep sm = .ok m' ∧ m'.get = m.get := by
  obtain ⟨⟨D, hs⟩, n1, h1⟩ := programAt_spec M hprop hstr (s := ⟨s, ⟨false, fun _ => [], none, none, none⟩⟩)
    (initSession_sess hi) hx h
  obtain ⟨n2, h2⟩ := endAt_spec hs
  refine ⟨n1 + n2, fun deep hd m => ?_⟩
  obtain ⟨sm, e1, e2⟩ := h1 deep (by omega) m.get _ (begun hi m)
  obtain ⟨m', e3, e4⟩ := h2 deep (by omega) m.get sm e2
  exact ⟨sm, m', e1, e2, e3, e4⟩

/-- A file that does not consist of seven rulesets: the rules that have been read stay in memory, nothing leads to
them any more as far as `unload_simplification` is concerned, and it does not free anything. -/
theorem C103_leak (M : Malloc V) {prop : Ctx} (hprop : propCtx = .ok prop) (strtod : Str → Option V) {text : Str}
    {n : Int} {rs : Nat → List (RewriteRule V)} (h : parseRulesets (parseEasy prop strtod) 7 text = .ok (n, rs))
    (hn : n ≠ 7) : ∃ N, ∀ deep ≥ N, ∀ (c : Ctx) (l : LoadedSimp) (m : Mem V), l.initialized = false → ∃ l' m',
      loadAt (parseEasyAt M c strtod) (parseEasyAt M prop strtod) deep (some text) l m = .ok (l', m') ∧
      FitsRulesets rs l'.rulesets ∧
      Owns m.get ((List.range 7).flatMap fun k => ruleTrees (rs k))
        ((List.range 7).flatMap fun k => ruleRoots (l'.rulesets k)) m'.get ∧
      unloadAt deep l' m' = .ok (l', m') := by
  obtain ⟨N, hN⟩ := rulesetsAt_spec (parseEasyAt_parses M (propCtx_usual hprop) strtod) text h
  refine ⟨N, fun deep hd c l m hl => ?_⟩
  obtain ⟨outm, m', e1, e2, e3⟩ := hN deep hd m
  have e1' : rulesetsAt (parseEasyAt M prop strtod) deep numRulesets text m = .ok (n, outm, m') := e1
  have hn' : n ≠ (numRulesets : Int) := hn
  refine ⟨{ l with rulesets := outm }, m', ?_, e2, ?_, ?_⟩
  · simp only [loadAt, unloadAt, hl, Bool.false_eq_true, if_false, Out.pure_eq, Out.bind_ok, initAt, e1']
    rw [if_pos hn']
    rfl
  · unfold OwnsP at e3
    rwa [setsPairs_fst e2, setsPairs_snd e2] at e3
  · simp [unloadAt, hl]

/-! ## Examples -/

/-- The calculator from its start on: the number of nodes before its end, after it, and of the rules loaded. -/
def lived (is : List ProgramInput) : Option (Nat × Nat × List Nat) :=
  match (initSession () : Res (Session Nat Unit)), propCtx with
  | .ok s, .ok prop =>
    match programAt bump reading 12 prop Verif.ParserProps.digit ⟨⟨s.ctx, [], s.hist, ⟨[], fun _ => none⟩⟩, .start⟩
        (is.map fun i => (nine, i)) with
    | .ok r =>
      match endAt 12 r with
      | .ok m => some (r.session.mem.cells.length, m.cells.length, (List.range 7).map fun k => (r.simp.rulesets k).length)
      | _ => none
    | _ => none
  | _, _ => none

/-- Seven rulesets with two rules. -/
def sevenSets : Str := "RULESET 1\nx+0 -> x\nRULESET 2\nRULESET 3\nRULESET 4\nRULESET 5\nRULESET 6\nRULESET 7\nx*y -> y*x WHERE x > y ; x < 3\n".toList

/-- The last ruleset is missing. -/
def sixSets : Str := "RULESET 1\nx+0 -> x\nRULESET 2\nRULESET 3\nRULESET 4\nRULESET 5\nRULESET 6\nx*y -> y*x\n".toList

/-- The file is well-formed, and the tokens are no numbers. -/
example : (match propCtx with
    | .ok prop => match parseRulesets (parseEasy prop Verif.ParserProps.digit) 7 sevenSets with
      | .ok (n, rs) => decide (n = 7 ∧ (rs 0).length = 1 ∧ (rs 6).length = 1)
      | _ => false
    | _ => false) = true := by decide +kernel

example : ∀ tok ∈ patternToks, Verif.ParserProps.digit tok = none := by decide +kernel

set_option Elab.async false in
/-- Two rules, loaded twice, and a function: nothing is left. -/
example : lived [.load (some sevenSets), .session (.definition "f(x)=sum(x,1)".toList), .load (some sevenSets)]
    = some (33, 0, [1, 0, 0, 0, 0, 0, 1]) := by decide +kernel

set_option Elab.async false in
/-- With six rulesets ten nodes are left, and ten more whenever it is tried again. -/
example : lived [.load (some sixSets)] = some (10, 10, [1, 0, 0, 0, 0, 1, 0]) ∧
    lived [.load (some sixSets), .load (some sixSets)] = some (20, 20, [1, 0, 0, 0, 0, 1, 0]) := by
  constructor <;> decide +kernel

/-- `parse_pattern`: the number of nodes after a text it accepts or not. -/
def patternNodes (s : String) : Option (Bool × Nat) :=
  match propCtx with
  | .ok prop =>
    match parsePatternAt (parseEasyAt bump prop Verif.ParserProps.digit) 9 s.toList (⟨[], fun _ => none⟩ : Mem Nat) with
    | .ok (q, m) => some (q.isSome, m.cells.length)
    | _ => none
  | _ => none

/-- The same for `parse_rule`. -/
def ruleNodes (s : String) : Option (Bool × Nat) :=
  match propCtx with
  | .ok prop =>
    match parseRuleAt (parseEasyAt bump prop Verif.ParserProps.digit) 9 s.toList (⟨[], fun _ => none⟩ : Mem Nat) with
    | .ok (q, m) => some (q.isSome, m.cells.length)
    | _ => none
  | _ => none

/-- `parse_pattern` keeps the constraint if the pattern is no expression, `parse_rule` does not. -/
theorem C103_pattern_leak : patternNodes "x+ WHERE x > 1" = some (false, 3) ∧
    ruleNodes "x+ -> x WHERE x > 1" = some (false, 0) := by
  constructor <;> decide +kernel

example : patternNodes "x+y WHERE x > 1" = some (true, 6) ∧ ruleNodes "x+y -> x WHERE x > 1 ; y > x" = some (true, 10) ∧
    ruleNodes "x+y -> z WHERE x > 1" = some (false, 0) := by
  refine ⟨?_, ?_, ?_⟩ <;> decide +kernel

end Verif.ProgramMemoryProps
