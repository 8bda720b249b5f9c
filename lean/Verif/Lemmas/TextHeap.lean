import Verif.Spec.TextMemory
import Verif.Lemmas.SessionSame

/-!
# Lemmas on token texts in memory
-/

namespace Verif
open TextSpec ParserProps
variable {V ε ρ : Type}

/-! ## The memory -/

theorem TextMem.get_pick (A : TextMalloc) (m : TextMem) : m.get (A.pick m.blocks) = none := by
  unfold TextMem.get
  rw [Option.map_eq_none_iff, List.find?_eq_none]
  intro b hb
  simpa using A.fresh _ b hb

theorem TextMem.get_alloc (A : TextMalloc) (m : TextMem) (b : TextBlock) (p : Nat) :
    (m.alloc A b).2.get p = if p = A.pick m.blocks then some b else m.get p := by
  unfold TextMem.get TextMem.alloc
  by_cases h : p = A.pick m.blocks
  · simp [h]
  · have : ¬ A.pick m.blocks = p := fun e => h e.symm
    simp [h, this]

theorem TextMem.free_of {m : TextMem} {p : Nat} {b : TextBlock} (h : m.get p = some b) :
    ∃ m', m.free p = .ok m' ∧ ∀ q, m'.get q = if q = p then none else m.get q := by
  refine ⟨⟨m.blocks.filter fun b => b.1 ≠ p⟩, by simp [TextMem.free, h], ?_⟩
  intro q
  unfold TextMem.get
  by_cases hq : q = p
  · subst hq
    rw [if_pos rfl, Option.map_eq_none_iff, List.find?_eq_none]
    intro b hb
    simpa using (List.mem_filter.mp hb).2
  · rw [if_neg hq]
    congr 1
    rw [List.find?_filter]
    congr 1
    funext x
    by_cases hx : x.1 = q
    · simp [hx, hq]
    · simp [hx]

namespace TextSpec.Has
variable {base : Nat → Option TextBlock}

theorem perm {L L' : List (Nat × TextBlock)} {g : Nat → Option TextBlock} (h : Has base L g) (hp : L.Perm L') :
    Has base L' g := by
  refine ⟨(hp.map _).nodup_iff.1 h.nodup, ?_, ?_, ?_⟩
  · intro b hb
    exact h.new b (hp.mem_iff.2 hb)
  · intro b hb
    exact h.at_ b (hp.mem_iff.2 hb)
  · intro p hpn
    exact h.old p fun hm => hpn ((hp.map _).mem_iff.1 hm)

theorem alloc {L : List (Nat × TextBlock)} {m : TextMem} (h : Has base L m.get) (A : TextMalloc) (b : TextBlock) :
    Has base (L ++ [((m.alloc A b).1, b)]) (m.alloc A b).2.get := by
  have hn := TextMem.get_pick A m
  have hL : A.pick m.blocks ∉ L.map (·.1) := by
    intro hm
    obtain ⟨x, hx, he⟩ := List.mem_map.1 hm
    have := h.at_ x hx
    rw [he, hn] at this
    cases this
  have ha : (m.alloc A b).1 = A.pick m.blocks := rfl
  rw [ha]
  refine ⟨?_, ?_, ?_, ?_⟩
  · rw [List.map_append, List.nodup_append]
    refine ⟨h.nodup, by simp, ?_⟩
    intro x hx y hy
    simp only [List.map_cons, List.map_nil, List.mem_singleton] at hy
    rintro rfl
    exact hL (hy ▸ hx)
  · intro x hx
    rcases List.mem_append.1 hx with hx | hx
    · exact h.new x hx
    · simp only [List.mem_singleton] at hx
      subst hx
      rw [← h.old _ hL]
      exact hn
  · intro x hx
    rw [TextMem.get_alloc]
    rcases List.mem_append.1 hx with hx | hx
    · rw [if_neg]
      · exact h.at_ x hx
      · intro e
        exact hL (List.mem_map.2 ⟨x, hx, e⟩)
    · simp only [List.mem_singleton] at hx
      subst hx
      simp
  · intro p hp
    rw [List.map_append, List.mem_append, not_or] at hp
    rw [TextMem.get_alloc, if_neg]
    · exact h.old p hp.1
    · intro e
      exact hp.2 (by simp [e])

theorem read {L : List (Nat × TextBlock)} {m : TextMem} (h : Has base L m.get) {p : Nat} {s : Str}
    (hp : (p, TextBlock.text s) ∈ L) : m.read p = .ok s := by
  unfold TextMem.read
  rw [h.at_ _ hp]

theorem free {L M : List (Nat × TextBlock)} {m : TextMem} {b : Nat × TextBlock} (h : Has base (L ++ b :: M) m.get) :
    ∃ m', m.free b.1 = .ok m' ∧ Has base (L ++ M) m'.get := by
  obtain ⟨m', h1, h2⟩ := TextMem.free_of (h.at_ b (by simp))
  have h' := h.perm (List.perm_middle)
  have hnd := h'.nodup
  rw [List.map_cons, List.nodup_cons] at hnd
  refine ⟨m', h1, hnd.2, ?_, ?_, ?_⟩
  · intro x hx
    exact h'.new x (List.mem_cons_of_mem _ hx)
  · intro x hx
    rw [h2, if_neg]
    · exact h'.at_ x (List.mem_cons_of_mem _ hx)
    · intro e
      exact hnd.1 (e ▸ List.mem_map_of_mem hx)
  · intro p hp
    rw [h2]
    by_cases e : p = b.1
    · rw [if_pos e, e]
      exact (h.new b (by simp)).symm
    · rw [if_neg e]
      refine h'.old p ?_
      rw [List.map_cons, List.mem_cons, not_or]
      exact ⟨e, hp⟩

end TextSpec.Has

/-- The blocks of texts. -/
def textBlocks (T : List (Nat × Str)) : List (Nat × TextBlock) := T.map fun x => (x.1, .text x.2)

theorem readTexts_spec {base : Nat → Option TextBlock} {L : List (Nat × TextBlock)} {m : TextMem}
    (h : Has base L m.get) : ∀ (T : List (Nat × Str)), (∀ x ∈ textBlocks T, x ∈ L) →
    m.readAll (T.map (·.1)) = .ok (T.map (·.2)) := by
  intro T
  induction T with
  | nil => intro _; rfl
  | cons x T ih =>
    intro hT
    have h1 := h.read (hT (x.1, .text x.2) (by simp [textBlocks]))
    have h2 := ih fun y hy => hT y (by
      simp only [textBlocks, List.map_cons] at hy ⊢
      exact List.mem_cons_of_mem _ hy)
    simp only [List.map_cons, TextMem.readAll, h1, h2]
    rfl

theorem freeTexts_spec {base : Nat → Option TextBlock} {L : List (Nat × TextBlock)} : ∀ (T : List (Nat × Str)) (m : TextMem),
    Has base (L ++ textBlocks T) m.get → ∃ m', m.freeAll (T.map (·.1)) = .ok m' ∧ Has base L m'.get := by
  intro T
  induction T with
  | nil =>
    intro m h
    exact ⟨m, rfl, by simpa [textBlocks] using h⟩
  | cons x T ih =>
    intro m h
    obtain ⟨m1, h1, h2⟩ := TextSpec.Has.free (b := (x.1, TextBlock.text x.2)) h
    obtain ⟨m2, h3, h4⟩ := ih m1 h2
    refine ⟨m2, ?_, h4⟩
    simp only at h1
    simp only [List.map_cons, TextMem.freeAll, h1]
    exact h3

/-! ## Tokens -/

theorem pushTokenAt_spec {base : Nat → Option TextBlock} {L : List (Nat × TextBlock)} (A : TextMalloc)
    (T : List (Nat × Str)) (tok : Str) (m : TextMem) (h : Has base (L ++ textBlocks T) m.get) :
    ∃ T', (pushTokenAt A (T.map (·.1)) tok m).1 = T'.map (·.1) ∧ pushToken (T.map (·.2)) tok = T'.map (·.2) ∧
      Has base (L ++ textBlocks T') (pushTokenAt A (T.map (·.1)) tok m).2.get := by
  unfold pushTokenAt pushToken
  split
  · exact ⟨T, rfl, rfl, h⟩
  · refine ⟨T ++ [((m.alloc A (.text tok)).1, tok)], by simp, by simp, ?_⟩
    have := h.alloc A (.text tok)
    simpa [textBlocks] using this

theorem tokLoopAt_spec {base : Nat → Option TextBlock} {L : List (Nat × TextBlock)} (A : TextMalloc) (kw : Trie Unit)
    (inp : Str) : ∀ (fuel i start : Nat) (st : TokState) (T : List (Nat × Str)) (m : TextMem),
    Has base (L ++ textBlocks T) m.get →
    ∃ T', (tokLoopAt A kw inp fuel i start st (T.map (·.1)) m).1 = T'.map (·.1) ∧
      tokLoop kw inp fuel i start st (T.map (·.2)) = T'.map (·.2) ∧
      Has base (L ++ textBlocks T') (tokLoopAt A kw inp fuel i start st (T.map (·.1)) m).2.get := by
  intro fuel
  induction fuel with
  | zero =>
    intro i start st T m h
    exact pushTokenAt_spec A T _ m h
  | succ n ih =>
    intro i start st T m h
    unfold tokLoopAt tokLoop
    cases inp[i]? with
    | none => exact pushTokenAt_spec A T _ m h
    | some c =>
      simp only
      generalize he : (st != .new && (classify c != st || classify c == .other)) = ended
      have key : ∃ T1, (if ended = true then pushTokenAt A (T.map (·.1)) ((inp.drop start).take (i - start)) m
            else (T.map (·.1), m)).1 = T1.map (·.1) ∧
          (if ended = true then pushToken (T.map (·.2)) ((inp.drop start).take (i - start)) else T.map (·.2))
            = T1.map (·.2) ∧
          Has base (L ++ textBlocks T1) (if ended = true then
            pushTokenAt A (T.map (·.1)) ((inp.drop start).take (i - start)) m else (T.map (·.1), m)).2.get := by
        cases ended with
        | true => exact pushTokenAt_spec A T _ m h
        | false => exact ⟨T, rfl, rfl, h⟩
      obtain ⟨T1, e1, e2, h1⟩ := key
      rw [e1, e2]
      generalize (if classify c != .letter then (kw.longestPrefix (inp.drop i)).1 else 0) = len
      by_cases hl : len > 0
      · obtain ⟨T2, f1, f2, h2⟩ := pushTokenAt_spec A T1 ((inp.drop i).take len) _ h1
        simp only [if_pos hl]
        rw [f1, f2]
        exact ih _ _ _ T2 _ h2
      · simp only [if_neg hl]
        exact ih _ _ _ T1 _ h1

theorem tokenizeAt_spec {base : Nat → Option TextBlock} {L : List (Nat × TextBlock)} (A : TextMalloc) (kw : Trie Unit)
    (inp : Str) (m : TextMem) (h : Has base L m.get) :
    ∃ buf T, (tokenizeAt A kw inp m).1 = ⟨buf, T.map (·.1)⟩ ∧ tokenize kw inp = T.map (·.2) ∧
      Has base ((L ++ [(buf, .buffer)]) ++ textBlocks T) (tokenizeAt A kw inp m).2.get := by
  have h1 := h.alloc A .buffer
  obtain ⟨T, e1, e2, h2⟩ := tokLoopAt_spec A kw inp inp.length 0 0 .new [] _ (by simpa [textBlocks] using h1)
  refine ⟨(m.alloc A .buffer).1, T, ?_, e2, h2⟩
  simp only [tokenizeAt]
  rw [← e1]
  rfl

/-- The result of a parse that has not been freed yet. -/
def Unfreed (base : Nat → Option TextBlock) (L : List (Nat × TextBlock)) (r : TokenResult) (m : TextMem) : Prop :=
  r.null = false ∧ ∃ T, r.tokens.toks = T.map (·.1) ∧
    Has base ((L ++ [(r.tokens.buffer, .buffer)]) ++ textBlocks T) m.get

theorem freeResult_spec {base : Nat → Option TextBlock} {L : List (Nat × TextBlock)} {r : TokenResult} {m : TextMem}
    (h : Unfreed base L r m) : ∃ f, freeResult r m = .ok f ∧ f.1.null = true ∧ Has base L f.2.get := by
  obtain ⟨h1, T, h2, h3⟩ := h
  obtain ⟨m1, f1, h4⟩ := freeTexts_spec T m h3
  obtain ⟨m2, f2, h5⟩ := TextSpec.Has.free (M := []) h4
  refine ⟨({ r with null := true }, m2), ?_, rfl, by simpa using h5⟩
  simp only at f2
  simp [freeResult, h1, freeTokens, h2, f1, f2]

theorem parseInputAt_spec {base : Nat → Option TextBlock} {L : List (Nat × TextBlock)} (A : TextMalloc) (c : Ctx)
    (strtod : Str → Option V) (inp : Str) (m : TextMem) (h : Has base L m.get) :
    ∃ r m', parseInputAt A c strtod inp m = .ok ((parseInput c strtod inp).2, r, m') ∧ Unfreed base L r m' := by
  obtain ⟨buf, T, h1, h2, h3⟩ := tokenizeAt_spec A c.keywords inp m h
  have hr := readTexts_spec h3 T fun x hx => List.mem_append_right _ hx
  refine ⟨⟨⟨buf, T.map (·.1)⟩, false⟩, (tokenizeAt A c.keywords inp m).2, ?_, rfl, T, rfl, h3⟩
  simp only [parseInputAt, h1, hr, parseInput, h2]
  rfl

theorem readTokens_spec {base : Nat → Option TextBlock} {L : List (Nat × TextBlock)} {r : TokenResult} {m : TextMem}
    (h : Unfreed base L r m) : ∃ ts, m.readAll r.tokens.toks = .ok ts := by
  obtain ⟨-, T, h2, h3⟩ := h
  rw [h2]
  exact ⟨_, readTexts_spec h3 T fun x hx => List.mem_append_right _ hx⟩

theorem parseEasyText_spec {base : Nat → Option TextBlock} {L : List (Nat × TextBlock)} (A : TextMalloc) (c : Ctx)
    (strtod : Str → Option V) (inp : Str) (m : TextMem) (h : Has base L m.get) :
    OutRel (fun x y => x.1 = y ∧ Has base L x.2.get) (Out.of (parseEasyText A c strtod inp m))
      (Out.of (parseEasy c strtod inp)) := by
  obtain ⟨r, m', h1, h2⟩ := parseInputAt_spec A c strtod inp m h
  obtain ⟨f, h3, -, h4⟩ := freeResult_spec h2
  unfold parseEasyText parseEasy
  rw [h1]
  simp only [Res.bind_ok]
  cases (parseInput c strtod inp).2 with
  | ok t => simp only [h3]; exact .ok ⟨rfl, h4⟩
  | err e k => simp only [h3]; exact .ok ⟨rfl, h4⟩
  | okUninit => exact .ub
  | ub => exact .ub

theorem parseRawText_spec {base : Nat → Option TextBlock} {L : List (Nat × TextBlock)} (A : TextMalloc) (c : Ctx)
    (strtod : Str → Option V) (inp : Str) (m : TextMem) (h : Has base L m.get) :
    OutRel (fun x y => x.1 = y ∧ ((y = none ∧ Has base L x.2.2.get) ∨ (y ≠ none ∧ Unfreed base L x.2.1 x.2.2)))
      (Out.of (parseRawText A c strtod inp m)) (Out.of (parseEasy c strtod inp)) := by
  obtain ⟨r, m', h1, h2⟩ := parseInputAt_spec A c strtod inp m h
  obtain ⟨f, h3, -, h4⟩ := freeResult_spec h2
  obtain ⟨ts, h5⟩ := readTokens_spec h2
  unfold parseRawText parseEasy
  rw [h1]
  simp only [Res.bind_ok]
  cases (parseInput c strtod inp).2 with
  | ok t => exact .ok ⟨rfl, .inr ⟨by simp, h2⟩⟩
  | err e k => simp only [h3, h5]; exact .ok ⟨rfl, .inl ⟨rfl, h4⟩⟩
  | okUninit => exact .ub
  | ub => exact .ub

theorem simplifyText_spec {base : Nat → Option TextBlock} {L : List (Nat × TextBlock)} (K : Client V ε ρ)
    (funs : List (RewriteRule V)) (hist : List V) (w : ρ) (t : Tree V) {r : TokenResult} {m : TextMem}
    (h : Unfreed base L r m) :
    OutRel (fun x y => x.1 = y ∧ Has base L x.2.get) (simplifyText K funs hist w t r m)
      (arithSimplify K funs hist w t) := by
  obtain ⟨f, h3, -, h4⟩ := freeResult_spec h
  obtain ⟨ts, h5⟩ := readTokens_spec h
  have he : ∀ b, endSimplifyText b r m = .ok f.2 := by
    intro b
    cases b <;> simp [endSimplifyText, h3, h5]
  unfold simplifyText
  simp only [he]
  cases arithSimplify K funs hist w t with
  | ok x => exact .ok ⟨rfl, h4⟩
  | hang => exact .hang
  | defect => exact .defect
  | ub => exact .ub

/-! ## The name of a definition -/

theorem pickName_some {base : Nat → Option TextBlock} {L : List (Nat × TextBlock)} (q : Nat) :
    ∀ (T : List (Nat × Str)) (n : Nat) (m : TextMem), Has base (L ++ textBlocks T) m.get →
    ∃ m', pickName (T.map (·.1)) (some q) n m =
        .ok (some q, n + ((T.map (·.2)).filter fun t => !headIs isSpace t).length, m') ∧ Has base L m'.get := by
  intro T
  induction T with
  | nil =>
    intro n m h
    exact ⟨m, rfl, by simpa [textBlocks] using h⟩
  | cons x T ih =>
    intro n m h
    obtain ⟨m1, h1, h2⟩ := TextSpec.Has.free (b := (x.1, TextBlock.text x.2)) h
    have hr := h.read (p := x.1) (s := x.2) (by simp [textBlocks])
    simp only at h1
    simp only [List.map_cons, pickName, hr, Res.bind_ok]
    by_cases hs : headIs isSpace x.2 = true
    · obtain ⟨m2, h3, h4⟩ := ih n m1 h2
      exact ⟨m2, by simp [hs, h1, h3], h4⟩
    · obtain ⟨m2, h3, h4⟩ := ih (n + 1) m1 h2
      refine ⟨m2, ?_, h4⟩
      simp only [Bool.not_eq_true] at hs
      simp [hs, h1, h3, Nat.add_assoc, Nat.add_comm]

theorem pickName_spec {base : Nat → Option TextBlock} {L : List (Nat × TextBlock)} :
    ∀ (T : List (Nat × Str)) (m : TextMem), Has base (L ++ textBlocks T) m.get →
    match (T.map (·.2)).filter fun t => !headIs isSpace t with
    | [] => ∃ m', pickName (T.map (·.1)) none 0 m = .ok (none, 0, m') ∧ Has base L m'.get
    | name :: more => ∃ p m', pickName (T.map (·.1)) none 0 m = .ok (some p, more.length + 1, m') ∧
        Has base (L ++ [(p, .text name)]) m'.get := by
  intro T
  induction T with
  | nil =>
    intro m h
    exact ⟨m, rfl, by simpa [textBlocks] using h⟩
  | cons x T ih =>
    intro m h
    obtain ⟨m1, h1, h2⟩ := TextSpec.Has.free (b := (x.1, TextBlock.text x.2)) h
    have hr := h.read (p := x.1) (s := x.2) (by simp [textBlocks])
    simp only at h1
    by_cases hs : headIs isSpace x.2 = true
    · have := ih m1 h2
      simp only [List.map_cons, List.filter_cons, hs, Bool.not_true, Bool.false_eq_true, if_false, pickName, hr,
        Res.bind_ok, h1, if_true]
      exact this
    · simp only [Bool.not_eq_true] at hs
      simp only [List.map_cons, List.filter_cons, hs, Bool.not_false, if_true, pickName, hr, Res.bind_ok,
        Bool.false_eq_true, if_false]
      obtain ⟨m2, h3, h4⟩ := pickName_some (L := L ++ [(x.1, TextBlock.text x.2)]) x.1 T 1 m (by
        simpa [textBlocks] using h)
      exact ⟨x.1, m2, by rw [h3, Nat.add_comm], h4⟩

/-! ## Operators -/

/-- The operators of the user with the addresses of their names. -/
structure Entries (c : Ctx) (E : List (Nat × Op × Nat)) (names : List (Nat × Nat)) : Prop where
  holds : Holds c (E.map (·.2.1))
  ops : c.ops = builtin ++ E.map fun e => (e.1, e.2.1)
  names : names = E.map fun e => (e.1, e.2.2)

/-- The blocks of the names. -/
def nameBlocks (E : List (Nat × Op × Nat)) : List (Nat × TextBlock) := E.map fun e => (e.2.2, .text e.2.1.name)

theorem Entries.addrs {c : Ctx} {E : List (Nat × Op × Nat)} {names : List (Nat × Nat)} (h : Entries c E names) :
    (builtin.map (·.1) ++ E.map (·.1)).Nodup := by
  have := h.holds.like.inv.nodup
  rw [h.ops, List.map_append, List.map_map] at this
  exact this

theorem deleteNamed_spec {base : Nat → Option TextBlock} {L : List (Nat × TextBlock)} {c : Ctx}
    {P Q : List (Nat × Op × Nat)} {e : Nat × Op × Nat} {names : List (Nat × Nat)} {m : TextMem}
    (h : Entries c (P ++ e :: Q) names) (hm : Has base L m.get) (he : (e.2.2, TextBlock.text e.2.1.name) ∈ L) :
    ∃ c' names', c.deleteOp e.2.1.name .function = .ok (c', true) ∧
      deleteNamed c names e.2.2 m = .ok (c', names') ∧ Entries c' (P ++ Q) names' := by
  obtain ⟨c', h1, h2, a, h3, h4⟩ := h.holds.deleteOp (u := e.2.1) (by simp)
  have hr := hm.read he
  have hnd := h.addrs
  have hop := h.holds.nodup
  have hae : a = e.1 := by
    rw [h.ops] at h3
    rcases List.mem_append.1 h3 with h3 | h3
    · exfalso
      have hb := h.holds.notBuiltin (u := e.2.1) (by simp)
      have hp := (h.holds.user e.2.1 (by simp)).placement
      unfold Ctx.findOp at hb
      have := List.find?_eq_none.mp hb _ h3
      simp [hp] at this
    · obtain ⟨x, hx, he⟩ := List.mem_map.1 h3
      simp only [Prod.mk.injEq] at he
      have hinj : x = e := by
        rw [List.map_map] at hop
        exact List.inj_on_of_nodup_map hop hx (by simp) (by simp [he.2])
      rw [← he.1, hinj]
  subst hae
  have hn : e.1 ∉ builtin.map (·.1) ∧ e.1 ∉ P.map (·.1) ∧ e.1 ∉ Q.map (·.1) := by
    rw [List.map_append, List.map_cons, ← List.append_assoc] at hnd
    have := (List.perm_middle.nodup_iff.1 hnd)
    rw [List.nodup_cons] at this
    simpa [not_or] using this.1
  have hkeep : ∀ (l : List (Nat × Op × Nat)), e.1 ∉ l.map (·.1) →
      (l.map fun e => (e.1, e.2.1)).filter (fun q => q.1 != e.1) = l.map fun e => (e.1, e.2.1) := by
    intro l hl
    rw [List.filter_eq_self]
    intro q hq
    obtain ⟨x, hx, rfl⟩ := List.mem_map.1 hq
    simp only [bne_iff_ne, ne_eq]
    intro e'
    exact hl (e' ▸ List.mem_map_of_mem hx)
  have hops : c'.ops = builtin ++ (P ++ Q).map fun e => (e.1, e.2.1) := by
    rw [h4, h.ops, List.map_append, List.map_cons, List.filter_append, List.filter_append, List.filter_cons,
      hkeep P hn.2.1, hkeep Q hn.2.2, List.map_append]
    congr 1
    · rw [List.filter_eq_self]
      intro q hq
      simp only [bne_iff_ne, ne_eq]
      intro e'
      exact hn.1 (e' ▸ List.mem_map_of_mem hq)
    · simp
  refine ⟨c', names.filter fun q => c'.ops.any fun x => x.1 == q.1, h1, by simp [deleteNamed, hr, h1], ?_, hops, ?_⟩
  · have : (List.map (fun x : Nat × Op × Nat => x.2.1) (P ++ e :: Q)).filter (fun o => o.name != e.2.1.name)
        = (P ++ Q).map (·.2.1) := by
      have e1 := h2.snd
      rw [hops, List.map_append, List.map_map] at e1
      exact (List.append_cancel_left e1).symm
    rw [this] at h2
    exact h2
  · rw [h.names, hops]
    have hin : ∀ x ∈ P ++ Q, ((builtin ++ (P ++ Q).map fun e => (e.1, e.2.1)).any fun y => y.1 == x.1) = true := by
      intro x hx
      rw [List.any_eq_true]
      exact ⟨(x.1, x.2.1), List.mem_append_right _ (List.mem_map_of_mem (f := fun e : Nat × Op × Nat => (e.1, e.2.1)) hx),
        by simp⟩
    have hout : ((builtin ++ (P ++ Q).map fun e => (e.1, e.2.1)).any fun y => y.1 == e.1) = false := by
      rw [List.any_eq_false]
      intro y hy
      simp only [beq_iff_eq]
      intro e'
      rcases List.mem_append.1 hy with hy | hy
      · exact hn.1 (e' ▸ List.mem_map_of_mem hy)
      · obtain ⟨x, hx, rfl⟩ := List.mem_map.1 hy
        simp only at e'
        rcases List.mem_append.1 hx with hx | hx
        · exact hn.2.1 (e' ▸ List.mem_map_of_mem hx)
        · exact hn.2.2 (e' ▸ List.mem_map_of_mem hx)
    rw [List.filter_map, List.filter_append, List.filter_cons]
    simp only [Function.comp_apply, hout, Bool.false_eq_true, if_false]
    rw [← List.filter_append, List.filter_eq_self.2]
    intro x hx
    exact hin x hx

theorem addNamed_spec {c : Ctx} {E : List (Nat × Op × Nat)} {names : List (Nat × Nat)} (h : Entries c E names)
    {o : Op} (ho : UserFn o) (hn : (arithEnv (E.map (·.2.1))).lookup o.name .function = none) (p : Nat) :
    ∃ c' names', c.addOp o = .ok (c', some c.nextAddr) ∧
      addNamed c names o p = .ok (c', some c.nextAddr, names') ∧
      Entries c' (E ++ [(c.nextAddr, { o with id := 58 + E.length }, p)]) names' ∧
      c'.deref c.nextAddr = .ok { o with id := 58 + E.length } := by
  obtain ⟨c', h1, h2, h3, h4⟩ := h.holds.addOp ho hn
  simp only [List.length_map] at h2 h3 h4
  refine ⟨c', names ++ [(c.nextAddr, p)], h1, by simp [addNamed, h1], ⟨?_, ?_, ?_⟩, h3⟩
  · simpa using h2
  · rw [h4, h.ops]; simp
  · rw [h.names]; simp

theorem namePtr_spec {c : Ctx} {P Q : List (Nat × Op × Nat)} {e : Nat × Op × Nat} {names : List (Nat × Nat)}
    (h : Entries c (P ++ e :: Q) names) {rule : RewriteRule V} (hr : rule.pattern.tree.rootOp = some e.2.1) :
    namePtr c names rule = .ok e.2.2 := by
  have hnd := h.addrs
  have hop := h.holds.nodup
  unfold namePtr
  have h1 : ∃ q, (c.ops.find? fun q => some q.2 = rule.pattern.tree.rootOp) = some q ∧ q = (e.1, e.2.1) := by
    cases hf : c.ops.find? fun q => some q.2 = rule.pattern.tree.rootOp with
    | none =>
      exfalso
      have := List.find?_eq_none.1 hf (e.1, e.2.1) (by rw [h.ops]; simp)
      simp [hr] at this
    | some q =>
      refine ⟨q, rfl, ?_⟩
      have h2 := List.find?_some hf
      have h3 := List.mem_of_find?_eq_some hf
      simp only [hr, Option.some.injEq, decide_eq_true_eq] at h2
      rw [h.ops] at h3
      rcases List.mem_append.1 h3 with h3 | h3
      · exfalso
        have hb := h.holds.notBuiltin (u := e.2.1) (by simp)
        have hp := (h.holds.user e.2.1 (by simp)).placement
        unfold Ctx.findOp at hb
        have := List.find?_eq_none.mp hb _ h3
        simp [h2, hp] at this
      · obtain ⟨x, hx, rfl⟩ := List.mem_map.1 h3
        have hinj : x = e := by
          rw [List.map_map] at hop
          exact List.inj_on_of_nodup_map hop hx (by simp) (congrArg Op.name h2)
        rw [hinj]
  obtain ⟨q, h1, rfl⟩ := h1
  rw [h1]
  simp only
  have h2 : (names.find? fun n => n.1 = e.1) = some (e.1, e.2.2) := by
    cases hf : names.find? fun n => n.1 = e.1 with
    | none =>
      exfalso
      have := List.find?_eq_none.1 hf (e.1, e.2.2) (by rw [h.names]; simp)
      simp at this
    | some q =>
      have h2 := List.find?_some hf
      have h3 := List.mem_of_find?_eq_some hf
      simp only [decide_eq_true_eq] at h2
      rw [h.names] at h3
      obtain ⟨x, hx, rfl⟩ := List.mem_map.1 h3
      have hinj : x = e := List.inj_on_of_nodup_map (List.nodup_append.1 hnd).2.1 hx (by simp) h2
      rw [hinj]
  rw [h2]

end Verif
