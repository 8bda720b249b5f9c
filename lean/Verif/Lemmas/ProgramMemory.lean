import Verif.Lemmas.RuleHeapSimp
import Verif.Lemmas.Simplification
import Verif.Lemmas.SessionTidy

/-!
# Lemmas on the nodes of the program
-/

namespace Verif
open MemorySpec OwnershipProps OperandsSpec
variable {V ε : Type}

/-! ## The propositional context -/

theorem propCtx_inv {c : Ctx} (h : propCtx = .ok c) : Ctx.Inv c := by
  unfold propCtx at h
  obtain ⟨c0, h0, h⟩ := Res.bind_eq_ok.1 h
  obtain ⟨⟨c1, b⟩, h1, h⟩ := Res.bind_eq_ok.1 h
  obtain ⟨c0', e, hl⟩ := arithCtx_ok
  rw [h0] at e
  cases e
  have hi := addOps_spec hl.inv propOps (by decide +kernel) h1
  cases b with
  | false => cases h
  | true =>
    simp only [Bool.not_true, Bool.false_eq_true, if_false, Ctx.setGlue, Res.bind_ok] at h
    cases h
    exact ⟨hi.rel, hi.nodup, hi.fresh, hi.assoc, hi.kw⟩

theorem propCtx_usual {c : Ctx} (h : propCtx = .ok c) : Usual c.env := by
  obtain ⟨c', e, ho, hg⟩ := propCtx_ok
  rw [h] at e
  cases e
  refine ParserMemoryProps.usual_of_wf ⟨fun tok pl o hl => ?_, fun o hl => ?_⟩
  · simp only [Ctx.env, (propCtx_inv h).lookup] at hl
    cases hf : Ctx.findOp c.ops tok pl with
    | none => rw [hf] at hl; cases hl
    | some p =>
      rw [hf] at hl
      cases hl
      obtain ⟨m1, m2, m3⟩ := Ctx.findOp_mem hf
      have hm : p.2 ∈ propBuiltin := by rw [← ho]; exact List.mem_map_of_mem m1
      have : ∀ o ∈ propBuiltin, WFOp o := by decide +kernel
      exact ⟨m3, this _ hm⟩
  · simp [Ctx.env, hg] at hl

/-- The tokens of the pattern of wrong derivatives, simplification.c:97. -/
def patternToks : List Str :=
  ["deriv".toList, "(".toList, "x".toList, ",".toList, " ".toList, "y".toList, ")".toList, "type".toList,
    "!=".toList, "VAR".toList]

theorem pattern_toks {c : Ctx} (hc : propCtx = .ok c) :
    tokenize c.keywords "deriv(x, y)".toList
      = ["deriv".toList, "(".toList, "x".toList, ",".toList, " ".toList, "y".toList, ")".toList] ∧
    tokenize c.keywords "type(y) != VAR".toList
      = ["type".toList, "(".toList, "y".toList, ")".toList, " ".toList, "!=".toList, " ".toList, "VAR".toList] := by
  have key : (match propCtx with
    | .ok c => decide (tokenize c.keywords "deriv(x, y)".toList
        = ["deriv".toList, "(".toList, "x".toList, ",".toList, " ".toList, "y".toList, ")".toList] ∧
      tokenize c.keywords "type(y) != VAR".toList
        = ["type".toList, "(".toList, "y".toList, ")".toList, " ".toList, "!=".toList, " ".toList, "VAR".toList])
    | _ => false) = true := by decide +kernel
  rw [hc] at key
  exact of_decide_eq_true key

theorem parseEasy_noNumbers {c : Ctx} {strtod : Str → Option V} {s : Str}
    (h : ∀ tok ∈ tokenize c.keywords s, strtod tok = none) : parseEasy c strtod s = parseEasy c (fun _ => none) s := by
  unfold parseEasy parseInput
  dsimp only
  rw [parseTokens_congr (E := c.env) (E' := c.env) rfl (tokenize c.keywords s) (fun _ _ _ => rfl) h]

theorem parsePattern_malformed {pv pv' : Str → Res (Option (Tree V))}
    (h1 : pv "deriv(x, y)".toList = pv' "deriv(x, y)".toList)
    (h2 : pv "type(y) != VAR".toList = pv' "type(y) != VAR".toList) :
    parsePattern pv "deriv(x, y) WHERE type(y) != VAR".toList
      = parsePattern pv' "deriv(x, y) WHERE type(y) != VAR".toList := by
  have key : ∀ q : Str → Res (Option (Tree V)), parsePattern q "deriv(x, y) WHERE type(y) != VAR".toList
      = (do
        match ← q "type(y) != VAR".toList with
        | none => pure none
        | some t =>
          match ← q "deriv(x, y)".toList with
          | none => pure none
          | some l =>
            match getPattern l [t] with
            | .error _ => pure none
            | .ok pat => pure (some pat)) := by
    intro q
    have e1 : strstr "deriv(x, y) WHERE type(y) != VAR".toList " WHERE ".toList = some 11 := by decide
    have e2 : cstr (("deriv(x, y) WHERE type(y) != VAR".toList.set 11 '\x00').drop (11 + 7)) = "type(y) != VAR".toList := by
      decide
    have e3 : cstr ("deriv(x, y) WHERE type(y) != VAR".toList.set 11 '\x00') = "deriv(x, y)".toList := by decide
    have e4 : strstr "type(y) != VAR".toList " ; ".toList = none := by decide
    obtain ⟨k, hk⟩ : ∃ k, maxConstraints = k + 1 := ⟨maxConstraints - 1, rfl⟩
    unfold parsePattern
    simp only [e1, Option.map_some, e2, e3, hk, parseConstraints, parseConstraintsLoop, e4]
    cases q "type(y) != VAR".toList with
    | ok o =>
      cases o with
      | none => rfl
      | some t =>
        simp only [Res.bind_ok, ite_self, Res.pure_eq]
        cases q "deriv(x, y)".toList with
        | ok o =>
          cases o with
          | none => rfl
          | some l =>
            simp only [Res.bind_ok]
            cases getPattern l [t] <;> rfl
        | defect => rfl
        | ub => rfl
    | defect => rfl
    | ub => rfl
  rw [key, key, h1, h2]

theorem parse_malformed_any {prop : Ctx} (hc : propCtx = .ok prop) {strtod : Str → Option V}
    (hs : ∀ tok ∈ patternToks, strtod tok = none) :
    ∃ pat, parsePattern (parseEasy prop strtod) "deriv(x, y) WHERE type(y) != VAR".toList = .ok (some pat) := by
  obtain ⟨t1, t2⟩ := pattern_toks hc
  have hn : ∀ (f : Str → Option V), (∀ tok ∈ patternToks, f tok = none) →
      parsePattern (parseEasy prop f) "deriv(x, y) WHERE type(y) != VAR".toList
        = parsePattern (parseEasy prop fun _ => none) "deriv(x, y) WHERE type(y) != VAR".toList := by
    intro f hf
    have m1 : ∀ tok ∈ tokenize prop.keywords "deriv(x, y)".toList, tok ∈ patternToks := by rw [t1]; decide
    have m2 : ∀ tok ∈ tokenize prop.keywords "type(y) != VAR".toList, tok ∈ patternToks := by rw [t2]; decide
    exact parsePattern_malformed (parseEasy_noNumbers fun tok ht => hf tok (m1 tok ht))
      (parseEasy_noNumbers fun tok ht => hf tok (m2 tok ht))
  refine ⟨malformedPattern, ?_⟩
  rw [hn strtod hs]
  have key : (propCtx >>= fun c => parsePattern (parseEasy c fun _ => none) "deriv(x, y) WHERE type(y) != VAR".toList)
      = .ok (some (malformedPattern : Pattern V)) := by kernel_rfl
  rw [hc] at key
  exact key

/-! ## `deriv_before` -/

theorem flatten_length_le : ∀ (l : List Str), (∀ t ∈ l, t ≠ []) → l.length ≤ l.flatten.length
  | [], _ => by simp
  | a :: l, h => by
    have h1 := flatten_length_le l fun t ht => h t (by simp [ht])
    have h2 : a.length ≠ 0 := fun e => h a (by simp) (by simpa using e)
    simp only [List.length_cons, List.flatten_cons, List.length_append]
    omega

theorem prime_pattern {c : Ctx} (hc : ArithLike c) {strtod : Str → Option V} {t : Tree V}
    (h : parseEasy c strtod "x'".toList = .ok (some t)) : ∃ pat, getPattern t [] = .ok pat := by
  rw [parseEasy_ok] at h
  have hv := parse_vars h
  obtain ⟨c1, c2⟩ := ParserProps.C07_calculator c hc "x'".toList
  have hlen := flatten_length_le _ c2
  rw [c1] at hlen
  have hf := TreeProps.addNew_first t.names
  have hle : (addNew [] t.names).length ≤ maxMappedVars := by
    have := (List.subperm_of_subset hf.nodup (fun n hn => hv n ((hf.mem n).1 hn))).length_le
    have e : ("x'".toList : Str).length = 2 := rfl
    have e' : maxMappedVars = 10 := rfl
    omega
  have hl := TreeProps.C22_list_variables maxMappedVars t _ (by rw [varNames_eq]; exact hf)
  rw [if_pos hle] at hl
  unfold getPattern
  simp only [hl.1, if_true, addConstraints]
  exact ⟨_, rfl⟩

/-! ## The functions -/

/-- The trees of the functions with their addresses. -/
def funPairs (rs : List (RewriteRule V)) (fs : List MemFun) : List (Tree V × Nat) :=
  (rs.zip fs).flatMap fun x => [(x.1.pattern.tree, x.2.left), (x.1.after, x.2.after)]

theorem owned_iff {g : Nat → Option (Cell V)} : ∀ {rs : List (RewriteRule V)} {fs : List MemFun} {S : List Nat},
    Owned g rs fs S ↔ rs.length = fs.length ∧ (∀ r ∈ rs, r.pattern.constraints = fun _ => []) ∧
      OwnershipSpec.HoldsAll g ((funPairs rs fs).map (·.1)) ((funPairs rs fs).map (·.2)) S
  | [], fs, S => by
    refine ⟨fun ⟨h1, h2⟩ => ?_, fun ⟨h1, _, h3⟩ => ?_⟩
    · subst h1
      exact ⟨rfl, by simp, rfl, h2⟩
    · have : fs = [] := by cases fs with
        | nil => rfl
        | cons => simp at h1
      exact ⟨this, h3.2⟩
  | r :: rs, fs, S => by
    refine ⟨fun ⟨f, fs', P, R, S', h1, h2, h3, h4, h5, h6⟩ => ?_, fun ⟨h1, h2, h3⟩ => ?_⟩
    · subst h1
      obtain ⟨k1, k2, k3⟩ := owned_iff.1 h6
      refine ⟨by simp [k1], fun x hx => ?_, ?_⟩
      · rcases List.mem_cons.mp hx with rfl | hx
        · exact h3
        · exact k2 x hx
      · exact ⟨f.left, f.after :: (funPairs rs fs').map (·.2), P, R ++ S', rfl, h2, h4, f.after, _, R, S', rfl, rfl, h5, k3⟩
    · cases fs with
      | nil => simp at h1
      | cons f fs =>
        obtain ⟨p, ps, P, S1, e1, e2, k1, q, qs, R, S2, e3, e4, k2, k3⟩ := h3
        cases e1
        cases e3
        refine ⟨f, fs, P, R, S2, rfl, by rw [e2, e4], h2 r (by simp), k1, k2, ?_⟩
        exact owned_iff.2 ⟨by simpa using h1, fun x hx => h2 x (by simp [hx]), k3⟩

theorem keeps_ownsP {base g : Nat → Option (Cell V)} {rs : List (RewriteRule V)} {fs : List MemFun} {S : List Nat}
    (h : Keeps base rs fs g S) : OwnsP base (funPairs rs fs) g :=
  ⟨S, (owned_iff.1 h.owned).2.2, h.nodup, h.new, h.old⟩

theorem ownsP_keeps {base base' g g' : Nat → Option (Cell V)} {rs : List (RewriteRule V)} {fs : List MemFun} {S : List Nat}
    (h : Keeps base rs fs g S) (ho : OwnsP base' (funPairs rs fs) g') : ∃ S', Keeps base' rs fs g' S' := by
  obtain ⟨S', h1, h2, h3, h4⟩ := ho
  obtain ⟨k1, k2, -⟩ := owned_iff.1 h.owned
  exact ⟨S', owned_iff.2 ⟨k1, k2, h1⟩, h2, h3, h4⟩

/-! ## The program -/

theorem programInputAt_spec (K : Machine V ε) (M : Malloc V) {F : Finder V} (hF : Finds K.dbl.eq F) {prop : Ctx}
    (hprop : propCtx = .ok prop) {strtod : Str → Option V} (hstr : ∀ tok ∈ patternToks, strtod tok = none)
    {s s' : ValueProgram V} {D : List (FunDef V)} (hs : Sess s.session D) {i : ProgramInput}
    (hw : WellFormed prop strtod i) (h : programInputOn K prop strtod s i = .ok s') :
    (∃ D', Sess s'.session D') ∧ ∃ n, ∀ deep ≥ n, ∀ base sm, ProgramInMemory base s sm →
      ∃ sm', K.programInputAt M F deep prop strtod sm i = .ok sm' ∧ ProgramInMemory base s' sm' := by
  cases i with
  | session i =>
    obtain ⟨r, h1, h2⟩ := Out.bind_eq_ok.1 h
    cases h2
    obtain ⟨g1, n, g2⟩ := inputAt_spec K M hF strtod hs h1
    refine ⟨g1, n + simpDepth s.simp, fun deep hd base sm hm => ?_⟩
    obtain ⟨hf, g, S, o1, o2⟩ := hm
    have o1' := (owns_simp hf).1 o1
    obtain ⟨ms, e1, e2⟩ := readSimp_spec hf o1' (m := sm.session.mem)
      (fun a ha => o2.keeps.old a fun hS => ha (o2.keeps.new a hS)) (show _ ≤ deep by omega)
    obtain ⟨sm', S', e3, e4⟩ := g2 deep (by omega) g ms sm.session S e2 o2
    exact ⟨{ sm with session := sm' }, by simp [Machine.programInputAt, e1, e3], hf, g, S', o1, e4⟩
  | load file =>
    obtain ⟨⟨b, simp'⟩, h1, h2⟩ := Out.bind_eq_ok.1 h
    cases h2
    rw [Out.of_eq_ok] at h1
    have hg := parseEasyAt_parses M (ParserMemoryProps.usual_of_wf hs.ctx.like.wf) strtod
    have hp := parseEasyAt_parses M (propCtx_usual hprop) strtod
    obtain ⟨n, hn⟩ := loadAt_spec hg hp (file := file)
      (fun text ht => by subst ht; exact hw) (fun t ht => prime_pattern hs.ctx.like ht)
      (parse_malformed_any hprop hstr) h1
    refine ⟨⟨D, hs⟩, n, fun deep hd base sm hm => ?_⟩
    obtain ⟨hf, g, S, o1, o2⟩ := hm
    have o1' := (owns_simp hf).1 o1
    have o3 : OwnsP base (simpPairs s.simp sm.simp ++ funPairs s.session.funs sm.session.funs) sm.session.mem.get :=
      o1'.trans (keeps_ownsP o2.keeps)
    obtain ⟨g1, o4, o5⟩ := (o3.perm List.perm_append_comm).split
    obtain ⟨l', m', e1, e2, e3⟩ := hn deep hd g1 sm.simp sm.session.mem hf o5
    obtain ⟨g', o6, o7⟩ := ((o4.trans e3).perm List.perm_append_comm).split
    obtain ⟨S', k⟩ := ownsP_keeps o2.keeps o7
    refine ⟨⟨{ sm.session with mem := m' }, l'⟩, ?_, e2, g', S', (owns_simp e2).2 o6, o2.ctx, o2.hist, k⟩
    simp only [Machine.programInputAt, o2.ctx, e1, Out.bind_ok, Out.pure_eq]

theorem programAt_spec (M : Malloc V) {F : Finder V} {prop : Ctx} (hprop : propCtx = .ok prop) {strtod : Str → Option V}
    (hstr : ∀ tok ∈ patternToks, strtod tok = none) : ∀ {xs : List (Machine V ε × ProgramInput)} {s s' : ValueProgram V}
    {D : List (FunDef V)}, Sess s.session D → (∀ x ∈ xs, Finds x.1.dbl.eq F ∧ WellFormed prop strtod x.2) →
    programOn prop strtod s xs = .ok s' →
    (∃ D', Sess s'.session D') ∧ ∃ n, ∀ deep ≥ n, ∀ base sm, ProgramInMemory base s sm →
      ∃ sm', programAt M F deep prop strtod sm xs = .ok sm' ∧ ProgramInMemory base s' sm'
  | [], s, s', D, hs, _, h => by
    cases h
    exact ⟨⟨D, hs⟩, 0, fun deep _ base sm hm => ⟨sm, rfl, hm⟩⟩
  | (K, i) :: xs, s, s', D, hs, hx, h => by
    obtain ⟨s1, h1, h2⟩ := Out.bind_eq_ok.1 h
    obtain ⟨hK, hw⟩ := hx (K, i) (by simp)
    obtain ⟨⟨D1, hs1⟩, n1, k1⟩ := programInputAt_spec K M hK hprop hstr hs hw h1
    obtain ⟨hs2, n2, k2⟩ := programAt_spec M hprop hstr hs1 (fun x hx' => hx x (by simp [hx'])) h2
    refine ⟨hs2, n1 + n2, fun deep hd base sm hm => ?_⟩
    obtain ⟨sm1, e1, e2⟩ := k1 deep (by omega) base sm hm
    obtain ⟨sm2, e3, e4⟩ := k2 deep (by omega) base sm1 e2
    exact ⟨sm2, by simp [programAt, e1, e3], e4⟩

/-- The end of the program. -/
theorem endAt_spec {s : ValueProgram V} {D : List (FunDef V)} (hs : Sess s.session D) :
    ∃ n, ∀ deep ≥ n, ∀ base sm, ProgramInMemory base s sm → ∃ m', endAt deep sm = .ok m' ∧ m'.get = base := by
  obtain ⟨c, k1, -⟩ := clearFunctions_spec s.session.funs s.session.ctx D hs.ctx hs.rules
  refine ⟨simpDepth s.simp + depth s.session.funs, fun deep hd base sm ⟨hf, g, S, o1, o2⟩ => ?_⟩
  have o3 := ((owns_simp hf).1 o1).trans (keeps_ownsP o2.keeps)
  obtain ⟨g1, o4, o5⟩ := (o3.perm List.perm_append_comm).split
  obtain ⟨m1, e1, e2⟩ := unloadAt_spec hf o5 (show _ ≤ deep by omega)
  obtain ⟨S', k2⟩ := ownsP_keeps o2.keeps o4
  rw [← e2] at k2
  obtain ⟨m', f1, f2⟩ := clearFunsAt_spec k2 k1 (show _ ≤ deep by omega)
  exact ⟨m', by simp [endAt, e1, o2.ctx, f1], f2⟩

end Verif
