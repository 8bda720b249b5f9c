import Verif.Lemmas.RuleHeapSets

/-!
# Lemmas on loading and unloading rules in memory
-/

namespace Verif
open MemorySpec OwnershipProps OperandsSpec
variable {V ε : Type}

/-- The trees of a pattern that may be there. -/
def maybePairs : Option (Pattern V) → Option MemPattern → List (Tree V × Nat)
  | some p, some q => patternPairs p q
  | _, _ => []

/-- A tree that may be there. -/
def treePairs : Option (Tree V) → Option Nat → List (Tree V × Nat)
  | some t, some p => [(t, p)]
  | _, _ => []

/-- All trees of simplification with their addresses. -/
def simpPairs (s : Simp V) (l : LoadedSimp) : List (Tree V × Nat) :=
  if s.initialized then
    maybePairs s.derivBefore l.derivBefore ++ treePairs s.derivAfter l.derivAfter ++
      maybePairs s.malformedDeriv l.malformedDeriv ++ setsPairs s.rulesets l.rulesets
  else []

theorem maybePairs_maps {p : Option (Pattern V)} {q : Option MemPattern} (h : FitsMaybe p q) :
    (maybePairs p q).map (·.1) = p.toList.flatMap patternTrees ∧
      (maybePairs p q).map (·.2) = q.toList.flatMap patternRoots := by
  cases p <;> cases q
  · exact ⟨rfl, rfl⟩
  · exact h.elim
  · exact h.elim
  · simp [maybePairs, patternPairs_fst h, patternPairs_snd h]

theorem treePairs_maps {t : Option (Tree V)} {p : Option Nat} (h : p.isSome = t.isSome) :
    (treePairs t p).map (·.1) = t.toList ∧ (treePairs t p).map (·.2) = p.toList := by
  cases t <;> cases p <;> simp_all [treePairs]

theorem simpPairs_maps {s : Simp V} {l : LoadedSimp} (h : FitsSimp s l) :
    (simpPairs s l).map (·.1) = simpTrees s ∧ (simpPairs s l).map (·.2) = simpRoots l := by
  unfold simpPairs simpTrees simpRoots
  rw [h.initialized]
  by_cases hi : s.initialized = true
  · simp only [hi, if_true, List.map_append, (maybePairs_maps (h.before hi)).1, (maybePairs_maps (h.before hi)).2,
      (maybePairs_maps (h.malformed hi)).1, (maybePairs_maps (h.malformed hi)).2, (treePairs_maps (h.after hi)).1,
      (treePairs_maps (h.after hi)).2, setsPairs_fst (h.rulesets hi), setsPairs_snd (h.rulesets hi), and_self]
  · simp [hi]

theorem owns_simp {base g : Nat → Option (Cell V)} {s : Simp V} {l : LoadedSimp} (h : FitsSimp s l) :
    Owns base (simpTrees s) (simpRoots l) g ↔ OwnsP base (simpPairs s l) g := by
  unfold OwnsP
  rw [(simpPairs_maps h).1, (simpPairs_maps h).2]

/-- How deep the trees of simplification are, together. -/
def simpDepth (s : Simp V) : Nat := ((simpTrees s).map calls).sum

theorem simpPairs_shallow {s : Simp V} {l : LoadedSimp} (h : FitsSimp s l) {deep : Nat} (hd : simpDepth s ≤ deep) :
    Shallow deep (simpPairs s l) := .of_sum (simpPairs_maps h).1 hd

/-- Nothing is loaded. -/
def noRules : Simp V := ⟨false, fun _ => [], none, none, none⟩

theorem unload_eq {s : Simp V} {l : LoadedSimp} (h : FitsSimp s l) : s.unload = noRules := by
  unfold Simp.unload
  split
  · rfl
  · rename_i hi
    exact h.empty (by simpa using hi)

theorem fits_noRules {l : LoadedSimp} (h : l.initialized = false) : FitsSimp (noRules : Simp V) l :=
  ⟨h, fun e => (by cases e), fun e => (by cases e), fun e => (by cases e), fun e => (by cases e), fun _ => rfl⟩

theorem simpPairs_noRules (l : LoadedSimp) : simpPairs (noRules : Simp V) l = [] := rfl

theorem unloadAt_spec {base : Nat → Option (Cell V)} {s : Simp V} {l : LoadedSimp} (h : FitsSimp s l) {m : Mem V}
    (ho : OwnsP base (simpPairs s l) m.get) {deep : Nat} (hd : simpDepth s ≤ deep) :
    ∃ m', unloadAt deep l m = .ok ({ l with initialized := false }, m') ∧ m'.get = base := by
  obtain ⟨m', e1, e2⟩ := OwnsP.freeTrees (L' := []) (by simpa using ho) (simpPairs_shallow h hd)
  rw [(simpPairs_maps h).2] at e1
  exact ⟨m', by rw [unloadAt_eq, e1]; rfl, ownsP_nil.1 e2⟩

section
variable {pv gv : Str → Res (Option (Tree V))} {pm gm : Str → Mem V → Out (Option Nat × Mem V)}

theorem getPattern_plain {t : Tree V} {pat : Pattern V} (h : getPattern t [] = .ok pat) :
    pat.constraints = fun _ => [] := by
  unfold getPattern at h
  dsimp only at h
  split at h
  · simp only [addConstraints, Except.ok.injEq] at h
    rw [← h]
  · cases h

/-- `deriv_before`. -/
theorem beforeAt_spec (hg : Parses gv gm) {bo : Option (Tree V)} (h : gv "x'".toList = .ok bo)
    (hpat : ∀ t, bo = some t → ∃ pat, getPattern t [] = .ok pat) :
    ∃ N, ∀ deep, N ≤ deep → ∀ m, ∃ p m1 q m2, gm "x'".toList m = .ok (p, m1) ∧ beforeAt deep m1 p = .ok (q, m2) ∧
      FitsMaybe (bo.bind fun t => (getPattern t []).toOption) q ∧
      OwnsP m.get (maybePairs (bo.bind fun t => (getPattern t []).toOption) q) m2.get := by
  cases bo with
  | none =>
    refine ⟨0, fun deep _ m => ?_⟩
    obtain ⟨m', e1, e2⟩ := hg.none _ h m
    exact ⟨none, m', none, m', e1, rfl, trivial, ownsP_nil.2 e2⟩
  | some t =>
    obtain ⟨pat, hp⟩ := hpat t rfl
    refine ⟨calls t, fun deep hd m => ?_⟩
    obtain ⟨p, m1, e1, e2⟩ := hg.some _ t h m
    obtain ⟨q, m2, C', f1, f2, f3, -⟩ := (patternAt_spec (deep := deep) (C := []) (U := []) e2 hd .nil).1 pat hp
    have hc := getPattern_plain hp
    have hC : C' = [] := by simpa using f3
    subst hC
    have f1' : patternAt deep m1 p [] = .ok (some q, m2) := f1
    refine ⟨some p, m1, some ⟨p, fun _ => []⟩, m2, e1, by simp [beforeAt, f1'], ?_, ?_⟩
    · simp only [Option.bind_some, hp, Except.toOption]
      exact ⟨fun k => by rw [hc]; rfl, fun k _ => by rw [hc]⟩
    · simp only [Option.bind_some, hp, Except.toOption, maybePairs, patternPairs, paired, hc]
      have e : (List.range 10).flatMap (fun _ => ([] : List (Tree V × Nat))) = [] := rfl
      simpa [e] using f2

theorem initAt_spec (hg : Parses gv gm) (hp : Parses pv pm) {text : Str} {rs : Nat → List (RewriteRule V)}
    (hr : parseRulesets pv 7 text = .ok (7, rs))
    (hpat : ∀ t, gv "x'".toList = .ok (some t) → ∃ pat, getPattern t [] = .ok pat)
    (hm : ∃ pat, parsePattern pv "deriv(x, y) WHERE type(y) != VAR".toList = .ok (some pat))
    {s s' : Simp V} {n : Int} (h : initSimplification gv pv (some text) s = .ok (n, s')) :
    0 ≤ n ∧ ∃ N, ∀ deep, N ≤ deep → ∀ l m, ∃ l' m', initAt gm pm deep (some text) l m = .ok (n, l', m') ∧
      FitsSimp s' l' ∧ OwnsP m.get (simpPairs s' l') m'.get := by
  obtain ⟨pat, hm⟩ := hm
  unfold initSimplification at h
  dsimp only at h
  obtain ⟨⟨k, rs'⟩, hr', h⟩ := Res.bind_eq_ok.1 h
  have : parseRulesets pv numRulesets text = .ok (7, rs) := hr
  rw [this] at hr'
  cases hr'
  dsimp only at h
  rw [if_neg (by simp [numRulesets])] at h
  obtain ⟨bo, hb, h⟩ := Res.bind_eq_ok.1 h
  obtain ⟨ao, ha, h⟩ := Res.bind_eq_ok.1 h
  rw [hm] at h
  simp only [Res.bind_ok] at h
  cases h
  refine ⟨by positivity, ?_⟩
  obtain ⟨N1, k1⟩ := rulesetsAt_spec hp text hr
  obtain ⟨N2, k2⟩ := beforeAt_spec hg hb fun t ht => hpat t (ht ▸ hb)
  obtain ⟨N3, k3⟩ := parsePatternAt_spec hp _ hm
  refine ⟨N1 + N2 + N3, fun deep hd l m => ?_⟩
  obtain ⟨outm, m1, a1, a2, a3⟩ := k1 deep (by omega) m
  obtain ⟨p, m2, q, m3, b1, b2, b3, b4⟩ := k2 deep (by omega) m1
  obtain ⟨p', m4, c1, c2, c3⟩ : ∃ p' m4, gm "deriv(x, z)".toList m3 = .ok (p', m4) ∧ p'.isSome = ao.isSome ∧
      OwnsP m3.get (treePairs ao p') m4.get := by
    cases ao with
    | none =>
      obtain ⟨m', e1, e2⟩ := hg.none _ ha m3
      exact ⟨none, m', e1, rfl, ownsP_nil.2 e2⟩
    | some t =>
      obtain ⟨p', m', e1, e2⟩ := hg.some _ t ha m3
      exact ⟨some p', m', e1, rfl, e2⟩
  obtain ⟨q', m5, d1, d2, d3⟩ := k3 deep (by omega) m4
  refine ⟨⟨true, outm, q, p', some q'⟩, m5, ?_, ?_, ?_⟩
  · have a1' : rulesetsAt pm deep numRulesets text m = .ok (7, outm, m1) := a1
    have len : ∀ j, (outm j).length = (rs j).length := fun j => (a2.1 j).length_eq.symm
    simp only [initAt, a1', Out.bind_ok, initDerivsAt, b1, b2, c1, d1, len, Out.pure_eq]
    rfl
  · exact ⟨rfl, fun _ => a2, fun _ => b3, fun _ => d3, fun _ => c2, fun e => (by cases e)⟩
  · refine (((a3.trans b4).trans c3).trans d2).perm ?_
    have e : maybePairs (some pat) (some q') = patternPairs pat q' := rfl
    simp only [simpPairs, if_true, e]
    rw [List.append_assoc, List.append_assoc]
    refine List.perm_append_comm.trans ?_
    simp only [List.append_assoc]
    exact .refl _

/-- `load simplification`. -/
theorem loadAt_spec (hg : Parses gv gm) (hp : Parses pv pm) {file : Option Str}
    (hr : ∀ text, file = some text → ∃ rs, parseRulesets pv 7 text = .ok (7, rs))
    (hpat : ∀ t, gv "x'".toList = .ok (some t) → ∃ pat, getPattern t [] = .ok pat)
    (hm : ∃ pat, parsePattern pv "deriv(x, y) WHERE type(y) != VAR".toList = .ok (some pat))
    {s s' : Simp V} {b : Bool} (h : loadSimplification gv pv file s = .ok (b, s')) :
    ∃ N, ∀ deep, N ≤ deep → ∀ base l m, FitsSimp s l → OwnsP base (simpPairs s l) m.get → ∃ l' m',
      loadAt gm pm deep file l m = .ok (l', m') ∧ FitsSimp s' l' ∧ OwnsP base (simpPairs s' l') m'.get := by
  unfold loadSimplification at h
  obtain ⟨⟨n, s1⟩, h1, h⟩ := Res.bind_eq_ok.1 h
  dsimp only at h
  have hs : s1 = s' := by
    split at h <;> (cases h; rfl)
  subst hs
  cases file with
  | none =>
    cases h1
    refine ⟨simpDepth s, fun deep hd base l m hf ho => ?_⟩
    obtain ⟨m', e1, e2⟩ := unloadAt_spec hf ho hd
    refine ⟨{ l with initialized := false }, m', by simp [loadAt, e1, initAt], ?_, ?_⟩
    · rw [unload_eq hf]; exact fits_noRules rfl
    · rw [unload_eq hf]; exact ownsP_nil.2 e2
  | some text =>
    obtain ⟨rs, hr⟩ := hr text rfl
    obtain ⟨-, N, hN⟩ := initAt_spec hg hp hr hpat hm h1
    refine ⟨simpDepth s + N, fun deep hd base l m hf ho => ?_⟩
    obtain ⟨m1, e1, e2⟩ := unloadAt_spec hf ho (show _ ≤ deep by omega)
    obtain ⟨l', m', f1, f2, f3⟩ := hN deep (by omega) { l with initialized := false } m1
    rw [e2] at f3
    exact ⟨l', m', by simp [loadAt, e1, f1], f2, f3⟩
end

/-! ## Reading the rules -/

/-- The trees are in the memory. -/
def Present (g : Nat → Option (Cell V)) (L : List (Tree V × Nat)) : Prop := ∀ x ∈ L, ∃ R, OwnershipSpec.Holds g x.1 x.2 R

theorem OwnsP.present {base g : Nat → Option (Cell V)} : ∀ {L : List (Tree V × Nat)}, OwnsP base L g → Present g L
  | [], _ => fun x hx => by simp at hx
  | (t, p) :: L, ⟨S, ⟨q, qs, S1, S2, e1, e2, h1, h2⟩, h3, h4, h5⟩ => by
    cases e1
    intro x hx
    rcases List.mem_cons.mp hx with rfl | hx
    · exact ⟨S1, h1⟩
    · have : OwnsP (fun a => if a ∈ S2 then none else g a) L g :=
        ⟨S2, h2, (e2 ▸ h3).of_append_right, fun a ha => by simp [ha], fun a ha => by simp [ha]⟩
      exact this.present x hx
termination_by L => L.length

theorem readAll_spec {m : Mem V} {deep : Nat} : ∀ {ts : List (Tree V)} {ps : List Nat}, ps.length = ts.length →
    Present m.get (ts.zip ps) → Shallow deep (ts.zip ps) → readAll deep m ps = .ok ts
  | [], [], _, _, _ => rfl
  | t :: ts, p :: ps, hl, hp, hs => by
    obtain ⟨R, h1⟩ := hp (t, p) (by simp)
    have e1 := readTree_spec h1 (hs (t, p) (by simp))
    have e2 := readAll_spec (m := m) (deep := deep) (ts := ts) (ps := ps) (by simpa using hl)
      (fun x hx => hp x (by simp [hx])) (fun x hx => hs x (by simp [hx]))
    simp [readAll, e1, e2]

theorem readConstraints_spec {m : Mem V} {deep : Nat} {cs : Nat → List (Tree V)} {qs : Nat → List Nat}
    (hl : ∀ k, (qs k).length = (cs k).length) : ∀ ks : List Nat,
    Present m.get (ks.flatMap fun k => (cs k).zip (qs k)) → Shallow deep (ks.flatMap fun k => (cs k).zip (qs k)) →
    readConstraints deep m qs ks = .ok fun k => if k ∈ ks then cs k else []
  | [], _, _ => by simp [readConstraints]
  | k :: ks, hp, hs => by
    rw [List.flatMap_cons] at hp hs
    have e1 := readAll_spec (hl k) (fun x hx => hp x (List.mem_append_left _ hx)) (fun x hx => hs x (List.mem_append_left _ hx))
    have e2 := readConstraints_spec (m := m) (deep := deep) hl ks (fun x hx => hp x (List.mem_append_right _ hx))
      (fun x hx => hs x (List.mem_append_right _ hx))
    simp only [readConstraints, e1, e2, Out.bind_ok, Out.pure_eq]
    congr 1
    funext j
    by_cases hj : j = k
    · simp [hj]
    · simp [hj]

theorem readPattern_spec {m : Mem V} {deep : Nat} {p : Pattern V} {q : MemPattern} (hf : FitsPattern p q)
    (hp : Present m.get (patternPairs p q)) (hs : Shallow deep (patternPairs p q)) : readPattern deep m q = .ok p := by
  obtain ⟨R, h1⟩ := hp (p.tree, q.tree) (by simp [patternPairs])
  have e1 := readTree_spec h1 (hs (p.tree, q.tree) (by simp [patternPairs]))
  have e2 := readConstraints_spec (m := m) (deep := deep) hf.1 (List.range 10)
    (fun x hx => hp x (List.mem_cons_of_mem _ hx)) (fun x hx => hs x (List.mem_cons_of_mem _ hx))
  have e3 : (fun k => if k ∈ List.range 10 then p.constraints k else []) = p.constraints := by
    funext k
    by_cases hk : k < 10
    · simp [hk]
    · simp [hk, hf.2 k (by omega)]
  rw [e3] at e2
  have e2' : readConstraints deep m q.constraints (List.range maxMappedVars) = .ok p.constraints := e2
  simp [readPattern, e1, e2']

theorem readMaybe_spec {m : Mem V} {deep : Nat} {p : Option (Pattern V)} {q : Option MemPattern} (hf : FitsMaybe p q)
    (hp : Present m.get (maybePairs p q)) (hs : Shallow deep (maybePairs p q)) : readMaybe deep m q = .ok p := by
  cases p <;> cases q
  · rfl
  · exact hf.elim
  · exact hf.elim
  · simp [readMaybe, readPattern_spec hf hp hs]

theorem readRules_spec {g : Nat → Option (Cell V)} {m : Mem V} {deep : Nat} : ∀ {rs : List (RewriteRule V)}
    {fs : List LoadedRule}, FitsRules rs fs → Present g (rulesetPairs rs fs) → Present m.get (rulesetPairs rs fs) →
    Shallow deep (rulesetPairs rs fs) → ∃ l, readRules deep m fs = .ok l ∧ Stored g rs l
  | [], fs, hf, _, _, _ => by
    cases hf
    exact ⟨[], rfl, rfl⟩
  | r :: rs, fs, hf, hg, hp, hs => by
    cases hf with
    | cons h1 h2 =>
      rename_i f fs
      simp only [rulesetPairs, List.zip_cons_cons, List.flatMap_cons] at hg hp hs
      have e1 := readPattern_spec (m := m) (deep := deep) h1 (fun x hx => hp x (List.mem_append_left _ (List.mem_append_left _ hx)))
        (fun x hx => hs x (List.mem_append_left _ (List.mem_append_left _ hx)))
      obtain ⟨l, e2, e3⟩ := readRules_spec (g := g) (m := m) (deep := deep) h2 (fun x hx => hg x (List.mem_append_right _ hx))
        (fun x hx => hp x (List.mem_append_right _ hx)) (fun x hx => hs x (List.mem_append_right _ hx))
      obtain ⟨R, e4⟩ := hg (r.after, f.after) (List.mem_append_left _ (List.mem_append_right _ (by simp)))
      exact ⟨⟨r.pattern, f.after⟩ :: l, by simp [readRules, e1, e2], f.after, l, R, rfl, e4, e3⟩

theorem readRulesets_spec {g : Nat → Option (Cell V)} {m : Mem V} {deep : Nat} {rs : Nat → List (RewriteRule V)}
    {fs : Nat → List LoadedRule} (hf : ∀ k, FitsRules (rs k) (fs k)) : ∀ ks : List Nat,
    Present g (ks.flatMap fun k => rulesetPairs (rs k) (fs k)) →
    Present m.get (ks.flatMap fun k => rulesetPairs (rs k) (fs k)) →
    Shallow deep (ks.flatMap fun k => rulesetPairs (rs k) (fs k)) →
    ∃ l, readRulesets deep m fs ks = .ok l ∧ ∀ k, (k ∈ ks → Stored g (rs k) (l k)) ∧ (k ∉ ks → l k = [])
  | [], _, _, _ => ⟨fun _ => [], rfl, fun k => by simp⟩
  | k :: ks, hg, hp, hs => by
    rw [List.flatMap_cons] at hg hp hs
    obtain ⟨l, e1, e2⟩ := readRules_spec (hf k) (fun x hx => hg x (List.mem_append_left _ hx))
      (fun x hx => hp x (List.mem_append_left _ hx)) (fun x hx => hs x (List.mem_append_left _ hx))
    obtain ⟨f, e3, e4⟩ := readRulesets_spec (g := g) (m := m) (deep := deep) hf ks (fun x hx => hg x (List.mem_append_right _ hx))
      (fun x hx => hp x (List.mem_append_right _ hx)) (fun x hx => hs x (List.mem_append_right _ hx))
    refine ⟨fun j => if j = k then l else f j, by simp [readRulesets, e1, e3], fun j => ?_⟩
    by_cases hj : j = k
    · subst hj
      simpa using e2
    · simpa [hj] using e4 j

theorem readSimp_spec {base g : Nat → Option (Cell V)} {s : Simp V} {l : LoadedSimp} (hf : FitsSimp s l)
    (ho : OwnsP base (simpPairs s l) g) {m : Mem V} (hm : ∀ a, g a ≠ none → m.get a = g a) {deep : Nat}
    (hd : simpDepth s ≤ deep) : ∃ ms, readSimp deep m l = .ok ms ∧ StoredSimp g s ms := by
  have hg := ho.present
  have hp : Present m.get (simpPairs s l) := by
    intro x hx
    obtain ⟨R, h⟩ := hg x hx
    exact ⟨R, h.congr fun a ha => hm a (h.live a ha)⟩
  have hs := simpPairs_shallow hf hd
  by_cases hi : s.initialized = true
  · have hl : l.initialized = true := hf.initialized.trans hi
    simp only [simpPairs, hi, if_true] at hg hp hs
    have e1 := readMaybe_spec (m := m) (deep := deep) (hf.before hi) (fun x hx => hp x (by simp [hx])) (fun x hx => hs x (by simp [hx]))
    have e2 := readMaybe_spec (m := m) (deep := deep) (hf.malformed hi) (fun x hx => hp x (by simp [hx])) (fun x hx => hs x (by simp [hx]))
    obtain ⟨rl, e3, e4⟩ := readRulesets_spec (g := g) (m := m) (deep := deep) (hf.rulesets hi).1 (List.range 7)
      (fun x hx => hg x (List.mem_append_right _ hx)) (fun x hx => hp x (List.mem_append_right _ hx))
      (fun x hx => hs x (List.mem_append_right _ hx))
    have e3' : readRulesets deep m l.rulesets (List.range numRulesets) = .ok rl := e3
    refine ⟨⟨true, rl, s.derivBefore, l.derivAfter, s.malformedDeriv⟩, by simp [readSimp, hl, e1, e2, e3'], hi.symm,
      fun k => ?_, rfl, rfl, ?_⟩
    · by_cases hk : k < 7
      · exact (e4 k).1 (by simpa using hk)
      · rw [(hf.rulesets hi).2 k (by omega)]
        exact (e4 k).2 (by simpa using hk)
    · have ha := hf.after hi
      cases hA : s.derivAfter with
      | none =>
        left
        rw [hA] at ha
        exact ⟨rfl, by simpa using ha⟩
      | some t =>
        right
        rw [hA] at ha
        obtain ⟨p, hP⟩ := Option.isSome_iff_exists.1 (by simpa using ha)
        obtain ⟨R, h⟩ := hg (t, p) (by simp [hA, hP, treePairs])
        exact ⟨t, p, R, rfl, hP, h⟩
  · have hi' : s.initialized = false := by simpa using hi
    have hl : l.initialized = false := hf.initialized.trans hi'
    rw [hf.empty hi']
    exact ⟨⟨false, fun _ => [], none, none, none⟩, by simp [readSimp, hl], rfl, fun _ => rfl, rfl, rfl, .inl ⟨rfl, rfl⟩⟩

end Verif
