import Verif.Lemmas.RuleHeapLoad

/-!
# Lemmas on rulesets in memory
-/

namespace Verif
open MemorySpec OwnershipProps OperandsSpec
variable {V ε : Type}

/-- The trees of rules with their addresses. -/
def rulesetPairs (rs : List (RewriteRule V)) (fs : List LoadedRule) : List (Tree V × Nat) :=
  (rs.zip fs).flatMap fun x => rulePairs x.1 x.2

/-- The trees of the rulesets with their addresses. -/
def setsPairs (rs : Nat → List (RewriteRule V)) (fs : Nat → List LoadedRule) : List (Tree V × Nat) :=
  (List.range 7).flatMap fun k => rulesetPairs (rs k) (fs k)

theorem rulesetPairs_snoc {rs : List (RewriteRule V)} {fs : List LoadedRule} (h : rs.length = fs.length)
    (r : RewriteRule V) (f : LoadedRule) :
    rulesetPairs (rs ++ [r]) (fs ++ [f]) = rulesetPairs rs fs ++ rulePairs r f := by
  simp [rulesetPairs, List.zip_append h]

theorem flatMap_more {α : Type} (f g : Nat → List α) (x : List α) (k : Nat) : ∀ l : List Nat, l.Nodup → k ∈ l →
    (∀ j, j ≠ k → g j = f j) → g k = f k ++ x → (l.flatMap g).Perm (l.flatMap f ++ x)
  | [], _, h, _, _ => by simp at h
  | j :: l, hn, h, h1, h2 => by
    rw [List.nodup_cons] at hn
    simp only [List.flatMap_cons]
    by_cases hj : j = k
    · subst hj
      have : l.flatMap g = l.flatMap f := by
        simp only [List.flatMap_def]
        congr 1
        exact List.map_congr_left fun i hi => h1 i fun e => hn.1 (e ▸ hi)
      rw [this, h2, List.append_assoc, List.append_assoc]
      exact List.perm_append_comm.append_left _
    · rw [h1 j hj, List.append_assoc]
      exact (flatMap_more f g x k l hn.2 (by simpa [Ne.symm hj] using h) h1 h2).append_left _

section
variable {pv : Str → Res (Option (Tree V))} {pm : Str → Mem V → Out (Option Nat × Mem V)}

/-- `parse_rulesets_from_file`: whatever is returned, the new nodes are those of the rules in the vectors. -/
theorem rulesetsLoopAt_spec (hp : Parses pv pm) : ∀ (lines : List Str) (curr : Int) (out : Nat → List (RewriteRule V)),
    -1 ≤ curr → ∀ n out', rulesetsLoop pv 7 lines curr out = .ok (n, out') → ∃ N, ∀ deep, N ≤ deep → ∀ base m outm,
    FitsRulesets out outm → OwnsP base (setsPairs out outm) m.get → ∃ outm' m',
      rulesetsLoopAt pm deep 7 lines curr outm m = .ok (n, outm', m') ∧ FitsRulesets out' outm' ∧
      OwnsP base (setsPairs out' outm') m'.get
  | [], curr, out, hc, n, out', h => by
    simp only [rulesetsLoop, Res.ok.injEq, Prod.mk.injEq] at h
    obtain ⟨rfl, rfl⟩ := h
    exact ⟨0, fun deep _ base m outm hf ho => ⟨outm, m, rfl, hf, ho⟩⟩
  | raw :: rest, curr, out, hc, n, out', h => by
    unfold rulesetsLoop at h
    obtain ⟨line, hl, h⟩ := Res.bind_eq_ok.1 h
    have start : ∀ deep outm m, rulesetsLoopAt pm deep 7 (raw :: rest) curr outm m = (
        if beginsWith "RULESET".toList line then rulesetsLoopAt pm deep 7 rest (curr + 1) outm m
        else if curr = (7 : Nat) then pure (curr - 1 + 1, outm, m)
        else if line.isEmpty then rulesetsLoopAt pm deep 7 rest curr outm m
        else if curr = -1 then rulesetsLoopAt pm deep 7 rest curr outm m
        else if curr > (7 : Nat) then .ub
        else do
          match ← parseRuleAt pm deep line m with
          | (none, m') => pure (-1, outm, m')
          | (some r, m') =>
            rulesetsLoopAt pm deep 7 rest curr
              (fun k => if k = curr.toNat then outm k ++ [r] else outm k) m') := by
      intro deep outm m
      rw [rulesetsLoopAt, hl]
      rfl
    by_cases h1 : beginsWith "RULESET".toList line
    · rw [if_pos h1] at h
      obtain ⟨N, hN⟩ := rulesetsLoopAt_spec hp rest (curr + 1) out (by omega) n out' h
      refine ⟨N, fun deep hd base m outm hf ho => ?_⟩
      rw [start, if_pos h1]
      exact hN deep hd base m outm hf ho
    rw [if_neg h1] at h
    by_cases h2 : curr = (7 : Nat)
    · rw [if_pos h2] at h
      simp only [pure, Res.ok.injEq, Prod.mk.injEq] at h
      obtain ⟨rfl, rfl⟩ := h
      refine ⟨0, fun deep hd base m outm hf ho => ⟨outm, m, ?_, hf, ho⟩⟩
      rw [start, if_neg h1, if_pos h2]
      rfl
    rw [if_neg h2] at h
    by_cases h3 : line.isEmpty
    · rw [if_pos h3] at h
      obtain ⟨N, hN⟩ := rulesetsLoopAt_spec hp rest curr out hc n out' h
      refine ⟨N, fun deep hd base m outm hf ho => ?_⟩
      rw [start, if_neg h1, if_neg h2, if_pos h3]
      exact hN deep hd base m outm hf ho
    rw [if_neg h3] at h
    by_cases h4 : curr = -1
    · rw [if_pos h4] at h
      obtain ⟨N, hN⟩ := rulesetsLoopAt_spec hp rest curr out hc n out' h
      refine ⟨N, fun deep hd base m outm hf ho => ?_⟩
      rw [start, if_neg h1, if_neg h2, if_neg h3, if_pos h4]
      exact hN deep hd base m outm hf ho
    rw [if_neg h4] at h
    by_cases h5 : curr > (7 : Nat)
    · rw [if_pos h5] at h; cases h
    rw [if_neg h5] at h
    obtain ⟨ro, hr, h⟩ := Res.bind_eq_ok.1 h
    obtain ⟨p1, p2⟩ := parseRuleAt_spec hp line
    cases ro with
    | none =>
      simp only [pure, Res.ok.injEq, Prod.mk.injEq] at h
      obtain ⟨rfl, rfl⟩ := h
      obtain ⟨N, hN⟩ := p2 hr
      refine ⟨N, fun deep hd base m outm hf ho => ?_⟩
      obtain ⟨m', e1, e2⟩ := hN deep hd m
      refine ⟨outm, m', ?_, hf, by rw [e2]; exact ho⟩
      rw [start, if_neg h1, if_neg h2, if_neg h3, if_neg h4, if_neg h5]
      simp [e1]
    | some r =>
      obtain ⟨N1, hN1⟩ := p1 r hr
      obtain ⟨N2, hN2⟩ := rulesetsLoopAt_spec hp rest curr _ hc n out' h
      refine ⟨N1 + N2, fun deep hd base m outm hf ho => ?_⟩
      obtain ⟨f, m1, e1, e2, e3⟩ := hN1 deep (by omega) m
      have hk : curr.toNat < 7 := by omega
      have hf' : FitsRulesets (fun k => if k = curr.toNat then out k ++ [r] else out k)
          (fun k => if k = curr.toNat then outm k ++ [f] else outm k) := by
        refine ⟨fun k => ?_, fun k hk' => ?_⟩
        · dsimp only
          split
          · exact List.rel_append (hf.1 k) (.cons e3 .nil)
          · exact hf.1 k
        · dsimp only
          rw [if_neg (by omega)]
          exact hf.2 k hk'
      obtain ⟨outm', m', g1, g2, g3⟩ := hN2 deep (by omega) base m1 _ hf' ((ho.trans e2).perm
        (flatMap_more _ _ (rulePairs r f) curr.toNat (List.range 7) List.nodup_range (by simpa using hk)
          (fun j hj => by simp [hj])
          (by simp only [if_true]; exact rulesetPairs_snoc (hf.1 curr.toNat).length_eq r f)).symm)
      refine ⟨outm', m', ?_, g2, g3⟩
      rw [start, if_neg h1, if_neg h2, if_neg h3, if_neg h4, if_neg h5]
      simpa [e1] using g1

theorem rulesetsAt_spec (hp : Parses pv pm) (text : Str) {n : Int} {out : Nat → List (RewriteRule V)}
    (h : parseRulesets pv 7 text = .ok (n, out)) : ∃ N, ∀ deep, N ≤ deep → ∀ m, ∃ outm m',
      rulesetsAt pm deep 7 text m = .ok (n, outm, m') ∧ FitsRulesets out outm ∧
      OwnsP m.get (setsPairs out outm) m'.get := by
  obtain ⟨N, hN⟩ := rulesetsLoopAt_spec hp (getlines text) (-1) (fun _ => []) (by omega) n out h
  refine ⟨N, fun deep hd m => hN deep hd m.get m (fun _ => []) ⟨fun _ => .nil, fun _ _ => rfl⟩ ?_⟩
  refine ownsP_nil.2 rfl |>.perm ?_
  simp [setsPairs, rulesetPairs]
end

/-! ## Addresses in order -/

theorem rulePairs_fst {r : RewriteRule V} {f : LoadedRule} (h : FitsPattern r.pattern f.pattern) :
    (rulePairs r f).map (·.1) = patternTrees r.pattern ++ [r.after] := by
  simp [rulePairs, patternPairs_fst h]

theorem rulePairs_snd {r : RewriteRule V} {f : LoadedRule} (h : FitsPattern r.pattern f.pattern) :
    (rulePairs r f).map (·.2) = patternRoots f.pattern ++ [f.after] := by
  simp [rulePairs, patternPairs_snd h]

theorem rulesetPairs_fst {rs : List (RewriteRule V)} {fs : List LoadedRule} (h : FitsRules rs fs) :
    (rulesetPairs rs fs).map (·.1) = ruleTrees rs := by
  unfold FitsRules at h
  induction h with
  | nil => rfl
  | cons h1 _ ih =>
    simp only [rulesetPairs, List.zip_cons_cons, List.flatMap_cons, List.map_append, rulePairs_fst h1, ruleTrees] at ih ⊢
    rw [ih]

theorem rulesetPairs_snd {rs : List (RewriteRule V)} {fs : List LoadedRule} (h : FitsRules rs fs) :
    (rulesetPairs rs fs).map (·.2) = ruleRoots fs := by
  unfold FitsRules at h
  induction h with
  | nil => rfl
  | cons h1 _ ih =>
    simp only [rulesetPairs, List.zip_cons_cons, List.flatMap_cons, List.map_append, rulePairs_snd h1, ruleRoots] at ih ⊢
    rw [ih]

theorem setsPairs_fst {rs : Nat → List (RewriteRule V)} {fs : Nat → List LoadedRule} (h : FitsRulesets rs fs) :
    (setsPairs rs fs).map (·.1) = (List.range 7).flatMap fun k => ruleTrees (rs k) := by
  rw [setsPairs, List.map_flatMap]
  simp only [fun k => rulesetPairs_fst (h.1 k)]

theorem setsPairs_snd {rs : Nat → List (RewriteRule V)} {fs : Nat → List LoadedRule} (h : FitsRulesets rs fs) :
    (setsPairs rs fs).map (·.2) = (List.range 7).flatMap fun k => ruleRoots (fs k) := by
  rw [setsPairs, List.map_flatMap]
  simp only [fun k => rulesetPairs_snd (h.1 k)]

/-! ## Freeing is freeing of the roots -/

theorem freePatternAt_eq (deep : Nat) (m : Mem V) (q : MemPattern) :
    freePatternAt deep m q = freeTrees deep (patternRoots q) m := by
  rfl

theorem freeRuleAt_eq (deep : Nat) (m : Mem V) (f : LoadedRule) :
    freeRuleAt deep m f = freeTrees deep (patternRoots f.pattern ++ [f.after]) m := by
  rw [freeTrees_append]
  unfold freeRuleAt
  rw [freePatternAt_eq]
  cases freeTrees deep (patternRoots f.pattern) m <;> simp [freeTrees, Out.bind, bind]
  rename_i m1
  cases freeTree deep m1 (some f.after) <;> rfl

theorem freeRulesetAt_eq (deep : Nat) : ∀ (fs : List LoadedRule) (m : Mem V),
    freeRulesetAt deep fs m = freeTrees deep (ruleRoots fs) m
  | [], m => rfl
  | f :: fs, m => by
    simp only [freeRulesetAt, ruleRoots, List.flatMap_cons]
    rw [freeTrees_append, freeRuleAt_eq]
    cases freeTrees deep (patternRoots f.pattern ++ [f.after]) m <;> simp [Out.bind, bind]
    exact freeRulesetAt_eq deep fs _

theorem freeRulesetsAt_eq (deep : Nat) (fs : Nat → List LoadedRule) : ∀ (ks : List Nat) (m : Mem V),
    freeRulesetsAt deep fs ks m = freeTrees deep (ks.flatMap fun k => ruleRoots (fs k)) m
  | [], m => rfl
  | k :: ks, m => by
    simp only [freeRulesetsAt, List.flatMap_cons]
    rw [freeTrees_append, freeRulesetAt_eq]
    cases freeTrees deep (ruleRoots (fs k)) m <;> simp [Out.bind, bind]
    exact freeRulesetsAt_eq deep fs ks _

theorem unloadAt_eq (deep : Nat) (s : LoadedSimp) (m : Mem V) :
    unloadAt deep s m = (freeTrees deep (simpRoots s) m).bind fun m' => .ok ({ s with initialized := false }, m') := by
  unfold unloadAt simpRoots
  by_cases hi : s.initialized = true
  · simp only [hi, if_true]
    have e1 : ∀ (o : Option MemPattern) (m : Mem V),
        freeMaybeAt deep m o = freeTrees deep (o.toList.flatMap patternRoots) m := by
      intro o m
      cases o <;> simp [freeMaybeAt, freePatternAt_eq, freeTrees]
    have e2 : ∀ (o : Option Nat) (m : Mem V), freeAfterAt deep m o = freeTrees deep o.toList m := by
      intro o m
      cases o with
      | none => rfl
      | some p => 
        simp only [freeAfterAt, Option.toList, freeTrees]
        cases freeTree deep m (some p) <;> rfl
    simp only [freeTrees_append, e1, e2, freeRulesetsAt_eq, numRulesets]
    cases freeTrees deep (s.derivBefore.toList.flatMap patternRoots) m with
    | ok m1 =>
      simp only [Out.bind, Out.bind_ok]
      cases freeTrees deep s.derivAfter.toList m1 with
      | ok m2 =>
        simp only [Out.bind_ok]
        cases freeTrees deep (s.malformedDeriv.toList.flatMap patternRoots) m2 with
        | ok m3 =>
          simp only [Out.bind_ok]
          cases freeTrees deep _ m3 <;> rfl
        | _ => rfl
      | _ => rfl
    | _ => rfl
  · have : s.initialized = false := by simpa using hi
    obtain ⟨i, a, b, c, d⟩ := s
    subst this
    simp [freeTrees, Out.bind]

end Verif
