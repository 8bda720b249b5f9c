import Verif.Lemmas.TextSession
import Verif.Props.SessionRuns

/-!
# C106: token texts in memory

Every text `tokenize` has allocated is freed once and not read afterwards, except for the names of the functions
the user has defined; these stay, one for each function, until the function is cleared.
-/

namespace Verif.TextMemoryProps
open Verif TextSpec SessionProps ParserProps
variable {V ε ρ : Type}

/-! ## Parsing -/

/-- **C106**, parsing: `parse_easy` returns the tree (or NULL) of the value model, and afterwards the memory is what it
was, whether the text could be parsed or not. -/
theorem C106_parse (A : TextMalloc) (c : Ctx) (strtod : Str → Option V) (text : Str) (m : TextMem) :
    OutRel (fun x y => x.1 = y ∧ ∀ p, x.2.get p = m.get p) (Out.of (parseEasyText A c strtod text m))
      (Out.of (parseEasy c strtod text)) := by
  have h0 : Has m.get [] m.get := ⟨by simp, by simp, by simp, fun _ _ => rfl⟩
  have h := parseEasyText_spec A c strtod text m h0
  generalize Out.of (parseEasyText A c strtod text m) = x at h ⊢
  generalize Out.of (parseEasy c strtod text) = y at h ⊢
  cases h with
  | ok h => exact .ok ⟨h.1, fun p => h.2.old p (by simp)⟩
  | hang => exact .hang
  | defect => exact .defect
  | ub => exact .ub

/-- **C106**, the second `free_result` of the table command (src/client/commands/cmd_table.c:64-68) after
`arith_parse_raw` has failed: nothing is freed twice, and what has been allocated is gone already. -/
theorem C106_again (A : TextMalloc) (c : Ctx) (strtod : Str → Option V) (text : Str) (m m' : TextMem) (r : TokenResult)
    (h : parseRawText A c strtod text m = .ok (none, r, m')) :
    freeResult r m' = .ok (r, m') ∧ ∀ p, m'.get p = m.get p := by
  have h0 : Has m.get [] m.get := ⟨by simp, by simp, by simp, fun _ _ => rfl⟩
  obtain ⟨r1, m1, h1, h2⟩ := parseInputAt_spec A c strtod text m h0
  obtain ⟨f, h3, h3', h4⟩ := freeResult_spec h2
  obtain ⟨ts, h5⟩ := readTokens_spec h2
  unfold parseRawText at h
  rw [h1] at h
  simp only [Res.bind_ok] at h
  split at h
  · simp only [h3, h5, Res.bind_ok, Res.pure_eq, Res.ok.injEq, Prod.mk.injEq, true_and] at h
    obtain ⟨rfl, rfl⟩ := h
    exact ⟨by simp [freeResult, h3'], fun p => h4.old p (by simp)⟩
  · cases h
  · cases h
  · cases h

/-! ## Sessions -/

theorem entries_of {names : List (Nat × Nat)} : ∀ {defined : List (Nat × Op)},
    names.map (·.1) = defined.map (·.1) → ∃ E : List (Nat × Op × Nat),
      names = E.map (fun e => (e.1, e.2.2)) ∧ defined = E.map fun e => (e.1, e.2.1) := by
  induction names with
  | nil =>
    intro defined h
    cases defined with
    | nil => exact ⟨[], rfl, rfl⟩
    | cons _ _ => cases h
  | cons n names ih =>
    intro defined h
    cases defined with
    | nil => cases h
    | cons d defined =>
      simp only [List.map_cons, List.cons.injEq] at h
      obtain ⟨E, h1, h2⟩ := ih h.2
      exact ⟨(n.1, d.2, n.2) :: E, by simp [h1], by simp [h2, h.1]⟩

theorem zip_entries (E : List (Nat × Op × Nat)) :
    ((E.map fun e => (e.1, e.2.2)).zip (E.map fun e => (e.1, e.2.1))).map
      (fun x : (Nat × Nat) × (Nat × Op) => (x.1.2, TextBlock.text x.2.2.name)) = nameBlocks E := by
  rw [List.zip_map', List.map_map]
  rfl

theorem builtin_58 : builtin.length = 58 := by decide +kernel

theorem named_of {base g : Nat → Option TextBlock} {c : Ctx} {E : List (Nat × Op × Nat)} {names : List (Nat × Nat)}
    (h : Entries c E names) (hm : Has base (nameBlocks E) g) : Named base (c.ops.drop 58) names g := by
  have hd : c.ops.drop 58 = E.map fun e => (e.1, e.2.1) := by
    rw [h.ops, ← builtin_58, List.drop_left]
  rw [hd]
  refine ⟨by rw [h.names]; simp, ?_⟩
  rw [h.names, zip_entries]
  exact hm

theorem of_named {base g : Nat → Option TextBlock} {s : Session V ρ} {D : List (FunDef V)} {names : List (Nat × Nat)}
    (hs : Sess s D) (h : Named base (s.ctx.ops.drop 58) names g) :
    ∃ E, Entries s.ctx E names ∧ Has base (nameBlocks E) g ∧
      s.funs.map (fun r => r.pattern.tree.rootOp) = E.map (fun e => some e.2.1) := by
  obtain ⟨E, h1, h2⟩ := entries_of h.each
  obtain ⟨as, g1, g2⟩ := hs.ctx.ops
  have g3 : s.ctx.ops.drop 58 = as.zip (D.map (·.op)) := by rw [g2, ← builtin_58, List.drop_left]
  have g4 : E.map (·.2.1) = D.map (·.op) := by
    rw [← zip_snd g1, ← g3, h2, List.map_map]
    rfl
  refine ⟨E, ⟨g4 ▸ hs.ctx, ?_, h1⟩, ?_, ?_⟩
  · rw [g2, ← g3, h2]
  · have := h.only
    rw [h2, h1, zip_entries] at this
    exact this
  · rw [hs.rootOps]
    have := congrArg (List.map some) g4
    rw [List.map_map, List.map_map] at this
    exact this.symm

theorem step_spec {base : Nat → Option TextBlock} (A : TextMalloc) (K : Client V ε ρ) {s : TextSession V ρ}
    {D : List (FunDef V)} (hs : Sess s.sess D) (hn : Named base (s.sess.ctx.ops.drop 58) s.names s.mem.get)
    (i : TextInput) :
    OutRel (fun x y => x.sess = y ∧ (∃ D, Sess y D) ∧ Named base (y.ctx.ops.drop 58) x.names x.mem.get)
      (inputText A K s i) (inputValue K s.sess i) := by
  obtain ⟨E, hE, hm, hr⟩ := of_named hs hn
  cases i with
  | evaluation input =>
    have h := evaluateText_spec A K hE hm input
    simp only [inputText, inputValue]
    generalize evaluateText A K s input = x at h ⊢
    cases hv : evaluationExec K s.sess input with
    | ok b =>
      rw [hv] at h
      cases h with
      | @ok a _ h =>
        obtain ⟨h1, -, E', h2, h3⟩ := h
        obtain ⟨k1, k2, -⟩ := evaluationExec_spec hv
        exact .ok ⟨h1, ⟨D, Sess.congr hs k1 k2⟩, by rw [← h1]; exact named_of h2 h3⟩
    | hang => rw [hv] at h; cases h; exact .hang
    | defect => rw [hv] at h; cases h; exact .defect
    | ub => rw [hv] at h; cases h; exact .ub
  | definition input =>
    have h := definitionText_spec A K hE hm input
    simp only [inputText, inputValue]
    generalize definitionText A K s input = x at h ⊢
    cases hv : definitionExec K s.sess input with
    | ok b =>
      rw [hv] at h
      cases h with
      | @ok a _ h =>
        obtain ⟨h1, -, E', h2, h3⟩ := h
        have hD : ∃ D', Sess b.1 D' := by
          rcases definitionExec_spec hs (show definitionExec K s.sess input = .ok (b.1, b.2) from hv)
            with ⟨-, h⟩ | ⟨-, d, -, h, -⟩
          · exact ⟨D, h.sess hs⟩
          · exact ⟨_, h⟩
        exact .ok ⟨h1, hD, by rw [← h1]; exact named_of h2 h3⟩
    | hang => rw [hv] at h; cases h; exact .hang
    | defect => rw [hv] at h; cases h; exact .defect
    | ub => rw [hv] at h; cases h; exact .ub
  | clear input =>
    have h := clearText_spec hE hm hr input
    simp only [inputText, inputValue]
    generalize Out.of (clearText s input) = x at h ⊢
    cases hv : Out.of (clearExec s.sess input) with
    | ok b =>
      rw [hv] at h
      cases h with
      | @ok a _ h =>
        obtain ⟨h1, -, E', h2, h3⟩ := h
        have hv' := Out.of_eq_ok.1 hv
        have hD : ∃ D', Sess b.1 D' := by
          by_cases hi : input = clearCommand
          · subst hi
            obtain ⟨c, k1, k2⟩ := clearExec_all hs
            rw [k1] at hv'
            cases hv'
            exact ⟨[], k2, .nil, by simp, by simp⟩
          · rcases clearExec_one hs hi with ⟨k1, -⟩ | ⟨s2, d, k1, -, -, -, -, k2⟩
            · rw [k1] at hv'
              cases hv'
              exact ⟨D, hs⟩
            · rw [k1] at hv'
              cases hv'
              exact ⟨_, k2⟩
        exact .ok ⟨h1, hD, by rw [← h1]; exact named_of h2 h3⟩
    | hang => rw [hv] at h; cases h; exact .hang
    | defect => rw [hv] at h; cases h; exact .defect
    | ub => rw [hv] at h; cases h; exact .ub

theorem run_spec {base : Nat → Option TextBlock} (A : TextMalloc) (K : Client V ε ρ) (is : List TextInput) :
    ∀ (s : TextSession V ρ) (D : List (FunDef V)), Sess s.sess D →
    Named base (s.sess.ctx.ops.drop 58) s.names s.mem.get →
    OutRel (fun x y => x.sess = y ∧ (∃ D, Sess y D) ∧ Named base (y.ctx.ops.drop 58) x.names x.mem.get)
      (sessionText A K s is) (sessionValue K s.sess is) := by
  induction is with
  | nil =>
    intro s D hs hn
    exact .ok ⟨rfl, ⟨D, hs⟩, hn⟩
  | cons i is ih =>
    intro s D hs hn
    refine .bind (step_spec A K hs hn i) ?_
    rintro a _ ⟨rfl, ⟨D', h1⟩, h2⟩
    exact ih a D' h1 h2

/-- **C106.** A session whose token texts are in memory behaves as the one whose texts are values (so no input makes it
read or free a text that has been freed already), and after every sequence of inputs there is in the memory,
besides what has been there before, the name of each function of the user, at the place its operator points to, and
nothing else. -/
theorem C106_session (A : TextMalloc) (K : Client V ε ρ) (base : Nat → Option TextBlock) (s : TextSession V ρ)
    (hs : Reachable K s.sess) (hn : Named base (s.sess.ctx.ops.drop 58) s.names s.mem.get) (is : List TextInput) :
    OutRel (fun x y => x.sess = y ∧ Named base (y.ctx.ops.drop 58) x.names x.mem.get)
      (sessionText A K s is) (sessionValue K s.sess is) := by
  obtain ⟨D, hD⟩ := hs.sess
  have h := run_spec A K is s D hD hn
  generalize sessionText A K s is = x at h ⊢
  generalize sessionValue K s.sess is = y at h ⊢
  cases h with
  | ok h => exact .ok ⟨h.1, h.2.2⟩
  | hang => exact .hang
  | defect => exact .defect
  | ub => exact .ub

/-- The state after the start of the program. -/
theorem started {w : ρ} {s : Session V ρ} (h : initSession w = .ok s) (m : TextMem) :
    Named m.get (s.ctx.ops.drop 58) [] m.get := by
  obtain ⟨as, h1, h2⟩ := (initSession_sess h).ctx.ops
  have : s.ctx.ops.drop 58 = [] := by
    rw [h2, ← builtin_58, List.drop_left]
    simp
  rw [this]
  exact ⟨rfl, by simp, by simp, by simp, fun _ _ => rfl⟩

/-- **C106**, from the start of the program: the texts in memory are those from before and, for every function of the
user, its name, each at an address of its own that was free at the start. -/
theorem C106_program (A : TextMalloc) (K : Client V ε ρ) (w : ρ) (s : Session V ρ) (hi : initSession w = .ok s)
    (m : TextMem) (is : List TextInput) (s' : TextSession V ρ) (h : sessionText A K ⟨s, [], m⟩ is = .ok s') :
    sessionValue K s is = .ok s'.sess ∧ (s'.names.map (·.2)).Nodup ∧
    s'.names.map (fun n => s'.mem.get n.2) = s'.sess.funs.map (fun r => r.pattern.tree.rootOp.map fun o => .text o.name) ∧
    (∀ n ∈ s'.names, m.get n.2 = none) ∧ ∀ p, p ∉ s'.names.map (·.2) → s'.mem.get p = m.get p := by
  have key := run_spec A K is ⟨s, [], m⟩ [] (initSession_sess hi) (started hi m)
  rw [h] at key
  generalize hv : sessionValue K s is = y at key ⊢
  cases key with
  | ok k =>
    obtain ⟨rfl, ⟨D, k1⟩, k2⟩ := k
    obtain ⟨E, e1, e2, e3⟩ := of_named k1 k2
    have hp : s'.names.map (·.2) = (nameBlocks E).map (·.1) := by
      rw [e1.names, nameBlocks, List.map_map, List.map_map]
      rfl
    refine ⟨rfl, hp ▸ e2.nodup, ?_, ?_, ?_⟩
    · have e4 : s'.sess.funs.map (fun r => r.pattern.tree.rootOp.map fun o : Op => TextBlock.text o.name)
          = E.map fun e => some (.text e.2.1.name) := by
        have := congrArg (List.map (Option.map fun o : Op => TextBlock.text o.name)) e3
        rw [List.map_map, List.map_map] at this
        exact this
      rw [e4, e1.names, List.map_map]
      refine List.map_congr_left fun e he => ?_
      exact e2.at_ (e.2.2, .text e.2.1.name) (List.mem_map_of_mem (f := fun e : Nat × Op × Nat => (e.2.2, TextBlock.text e.2.1.name)) he)
    · intro n hn
      have : n.2 ∈ (nameBlocks E).map (·.1) := hp ▸ List.mem_map_of_mem hn
      obtain ⟨b, hb, hbn⟩ := List.mem_map.1 this
      rw [← hbn]
      exact e2.new b hb
    · intro p hpn
      exact e2.old p (hp ▸ hpn)

/-- **C106**, at the end: `clear` (and `unload_arith_ctx`, src/client/core/arith_context.c:97-102, which does the same)
succeeds, and the memory is as it was when the program started. -/
theorem C106_clear (A : TextMalloc) (K : Client V ε ρ) (w : ρ) (s : Session V ρ) (hi : initSession w = .ok s)
    (m : TextMem) (is : List TextInput) (s' : TextSession V ρ) (h : sessionText A K ⟨s, [], m⟩ is = .ok s') :
    ∃ s'', clearText s' "clear".toList = .ok (s'', true) ∧ s''.sess.funs = [] ∧ s''.names = [] ∧
      ∀ p, s''.mem.get p = m.get p := by
  have key := run_spec A K is ⟨s, [], m⟩ [] (initSession_sess hi) (started hi m)
  rw [h] at key
  generalize hv : sessionValue K s is = y at key
  cases key with
  | ok k =>
    obtain ⟨rfl, ⟨D, k1⟩, k2⟩ := k
    obtain ⟨E, e1, e2, e3⟩ := of_named k1 k2
    obtain ⟨c', m', f1, f2, f3, f4⟩ := clearFunctionsText_spec s'.sess.funs _ E _ _ e1 e2 e3
    refine ⟨⟨{ s'.sess with ctx := c', funs := [] }, [], m'⟩, ?_, rfl, rfl, fun p => f4.old p (by simp)⟩
    have hc : ("clear".toList : Str) = clearCommand := rfl
    simp [clearText, hc, f2]

/-! ## Examples -/

/-- An allocator: the address after the greatest one in use. -/
def above : TextMalloc where
  pick blocks := (blocks.map (·.1)).foldr max 0 + 1
  fresh blocks b hb e := by
    have : b.1 ≤ (blocks.map (·.1)).foldr max 0 := by
      clear e
      induction blocks with
      | nil => cases hb
      | cons x xs ih =>
        rcases List.mem_cons.1 hb with rfl | h
        · exact Nat.le_max_left ..
        · exact Nat.le_trans (ih h) (Nat.le_max_right ..)
    omega

/-- What is in memory after some inputs, with a text at 7 from before. -/
def left (is : List TextInput) : Option (List (Nat × TextBlock)) :=
  match (initSession () : Res (Session Nat Unit)) with
  | .ok s =>
    match sessionText above K0 ⟨s, [], ⟨[(7, .text "x".toList)]⟩⟩ is with
    | .ok r => some r.mem.blocks
    | _ => none
  | _ => none

set_option Elab.async false in
/-- Two functions, an evaluation, a definition that is refused, one function cleared: the name of the other is left. -/
example : left [.definition " f (x)=x+1".toList, .evaluation "f(2)".toList, .definition "g=3".toList,
    .definition "h(x)=y".toList, .evaluation "2+".toList, .definition "2=x".toList, .clear "clear f".toList]
    = some [(12, .text "g".toList), (7, .text "x".toList)] := by
  decide +kernel

/-- After `clear` only what was there before is left; a second definition of a name is refused and its texts are freed. -/
example : left [.definition "f(x)=x+1".toList, .definition "f(x)=2".toList, .definition "g(x,y)=f(x)".toList,
    .definition "k(x)=k(x)".toList, .clear "clear".toList] = some [(7, .text "x".toList)] := by
  decide +kernel

/-- A text that cannot be parsed: `error` is `PERR_NULL` afterwards, and nothing is left. -/
example : (match (initSession () : Res (Session Nat Unit)) with
    | .ok s =>
      match parseRawText above s.ctx digit "2+(".toList ⟨[]⟩ with
      | .ok (none, r, m) => some (r.null, r.tokens.toks, m.blocks)
      | _ => none
    | _ => none) = some (true, [2, 3, 4], []) := by
  decide +kernel

end Verif.TextMemoryProps
