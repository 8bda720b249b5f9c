import Verif.Model.Session
import Verif.Lemmas.ArithContext
import Verif.Lemmas.Tokenizer

/-!
# What can be observed of the calculator's context

All contexts of the calculator tokenize alike, and the parser sees of a context
nothing but the list of the user functions.
-/

namespace Verif
open TrieProps
variable {V ε ρ : Type}

/-! ## Tokens -/

theorem tokLoop_congr {kw kw' : Trie Unit} {inp : Str}
    (h : ∀ s, headIs isLetter s = false → (kw.longestPrefix s).1 = (kw'.longestPrefix s).1)
    (fuel : Nat) : ∀ i start st toks,
    tokLoop kw inp fuel i start st toks = tokLoop kw' inp fuel i start st toks := by
  induction fuel with
  | zero => intros; rfl
  | succ fuel ih =>
    intro i start st toks
    simp only [tokLoop]
    cases hc : inp[i]? with
    | none => rfl
    | some c =>
      simp only
      have hlen : (if classify c != .letter then (kw.longestPrefix (inp.drop i)).1 else 0)
          = (if classify c != .letter then (kw'.longestPrefix (inp.drop i)).1 else 0) := by
        by_cases hl : classify c = .letter
        · simp [hl]
        · have : headIs isLetter (inp.drop i) = false := by
            obtain ⟨hi, rfl⟩ := List.getElem?_eq_some_iff.mp hc
            rw [List.drop_eq_getElem_cons hi]
            simp only [headIs]
            cases hb : isLetter inp[i] with
            | false => rfl
            | true => exact absurd (classify_letter.mpr hb) hl
          rw [h _ this]
      rw [hlen]
      simp only [ih]

/-- The keyword search depends on the keywords that do not start with a letter only. -/
theorem longest_congr {kw kw' : Trie Unit}
    (h : ∀ s, headIs isLetter s = false → Trie.mem kw.root s = Trie.mem kw'.root s)
    (s : Str) (hs : headIs isLetter s = false) :
    (kw.longestPrefix s).1 = (kw'.longestPrefix s).1 := by
  obtain ⟨a1, a2, a3⟩ := Trie.longestPrefix_spec kw s
  obtain ⟨b1, b2, b3⟩ := Trie.longestPrefix_spec kw' s
  have ht : ∀ j, headIs isLetter (s.take j) = false := by
    intro j
    cases s with
    | nil => simp [headIs]
    | cons c s =>
      cases j with
      | zero => simp [headIs]
      | succ j => simpa [headIs] using hs
  rcases Nat.lt_trichotomy (kw.longestPrefix s).1 (kw'.longestPrefix s).1 with hlt | he | hlt
  · have h1 := a3 _ hlt b1
    have h2 := (b2 (by omega)).1
    rw [h _ (ht _), h2] at h1
    cases h1
  · exact he
  · have h1 := b3 _ hlt a1
    have h2 := (a2 (by omega)).1
    rw [← h _ (ht _), h2] at h1
    cases h1

theorem isWord_head {s : Str} (h : isWord s = true) : headIs isLetter s = true := by
  cases s with
  | nil => simp [isWord] at h
  | cons c s =>
    simp only [isWord, List.all_cons, Bool.and_eq_true] at h
    exact h.2.1

theorem arith_names_split : ∀ o ∈ arithOps, isWord o.name = true ∨ headIs isLetter o.name = false := by
  decide +kernel

/-- Keywords that do not start with a letter are the same in all contexts. -/
theorem ArithLike.symbols {c : Ctx} (h : ArithLike c) (s : Str) (hs : headIs isLetter s = false) :
    Trie.mem c.keywords.root s = decide (s ∈ arithOps.map (·.name)) := by
  by_cases hm : s ∈ arithOps.map (·.name)
  · simp only [hm, decide_true]
    obtain ⟨o, ho, rfl⟩ := List.mem_map.mp hm
    refine h.kwSym o ho ?_
    cases hw : isWord o.name with
    | false => rfl
    | true => rw [isWord_head hw] at hs; cases hs
  · simp only [hm, decide_false]
    cases hk : Trie.mem c.keywords.root s with
    | false => rfl
    | true =>
      rcases h.kwSub s hk with hw | hw
      · rw [isWord_head hw] at hs; cases hs
      · exact absurd hw hm

/-- All contexts of the calculator cut texts into the same tokens. -/
theorem ArithLike.tokenize {c c' : Ctx} (h : ArithLike c) (h' : ArithLike c') (inp : Str) :
    tokenize c.keywords inp = tokenize c'.keywords inp := by
  unfold Verif.tokenize
  refine tokLoop_congr ?_ _ _ _ _ _
  refine longest_congr ?_
  intro s hs
  rw [h.symbols s hs, h'.symbols s hs]

/-! ## Operators -/

/-- The user functions of a context. -/
structure Holds (c : Ctx) (us : List Op) : Prop where
  like : ArithLike c
  ops : ∃ as : List Nat, as.length = us.length ∧ c.ops = builtin ++ as.zip us
  user : ∀ u ∈ us, UserFn u

/-- What the parser sees of a context with these user functions. -/
def arithEnv (us : List Op) : Env where
  lookup n pl := (builtin.map (·.2) ++ us).find? fun o => o.name == n && o.placement == pl
  glue := some mulOp

theorem findOp_snd (l : List (Nat × Op)) (n : Str) (pl : Placement) :
    (Ctx.findOp l n pl).map (·.2) = (l.map (·.2)).find? fun o => o.name == n && o.placement == pl := by
  unfold Ctx.findOp
  rw [List.find?_map]
  rfl

theorem zip_snd {as : List Nat} {us : List Op} (h : as.length = us.length) :
    (as.zip us).map (·.2) = us := by
  rw [List.map_snd_zip (by omega)]

theorem Holds.snd {c : Ctx} {us : List Op} (h : Holds c us) :
    c.ops.map (·.2) = builtin.map (·.2) ++ us := by
  obtain ⟨as, h1, h2⟩ := h.ops
  rw [h2, List.map_append, zip_snd h1]

theorem Holds.env {c : Ctx} {us : List Op} (h : Holds c us) : c.env = arithEnv us := by
  have h1 : c.env.lookup = (arithEnv us).lookup := by
    funext n pl
    rw [h.like.lookup_env, findOp_snd, h.snd]
    rfl
  have h2 := h.like.glue_env
  cases he : c.env with
  | mk l g =>
    rw [he] at h1 h2
    simp only at h1 h2
    rw [h1, h2]
    rfl

theorem Holds.lookup {c : Ctx} {us : List Op} (h : Holds c us) (n : Str) (pl : Placement) :
    ∃ r, c.lookup n pl = .ok r ∧ r.map (·.2) = (arithEnv us).lookup n pl := by
  refine ⟨_, h.like.inv.lookup n pl, ?_⟩
  rw [findOp_snd, h.snd]
  rfl

/-- Equal user functions: the parser gives the same result. -/
theorem Holds.parse {c c' : Ctx} {us : List Op} (h : Holds c us) (h' : Holds c' us)
    (strtod : Str → Option V) (inp : Str) : parseInput c strtod inp = parseInput c' strtod inp := by
  unfold parseInput
  rw [h.like.tokenize h'.like, h.env, h'.env]

theorem Holds.parseEasy {c c' : Ctx} {us : List Op} (h : Holds c us) (h' : Holds c' us)
    (strtod : Str → Option V) (inp : Str) : parseEasy c strtod inp = parseEasy c' strtod inp := by
  unfold Verif.parseEasy
  rw [h.parse h']

theorem Holds.length {c : Ctx} {us : List Op} (h : Holds c us) : c.ops.length = 58 + us.length := by
  have := congrArg List.length h.snd
  simpa [builtin_length] using this
where
  builtin_length : builtin.length = 58 := by decide +kernel

/-- `addOp` of a function whose name is new. -/
theorem Holds.addOp {c : Ctx} {us : List Op} (h : Holds c us) {o : Op} (ho : UserFn o)
    (hn : (arithEnv us).lookup o.name .function = none) :
    ∃ c', c.addOp o = .ok (c', some c.nextAddr) ∧ Holds c' (us ++ [{ o with id := 58 + us.length }]) ∧
      c'.deref c.nextAddr = .ok { o with id := 58 + us.length } ∧
      c'.ops = c.ops ++ [(c.nextAddr, { o with id := 58 + us.length })] := by
  have hf : Ctx.findOp c.ops o.name o.placement = none := by
    rw [← Option.map_eq_none_iff (f := (·.2)), findOp_snd, h.snd, ho.placement]
    exact hn
  have hcl : c.assocClash o = false := by simp [Ctx.assocClash, ho.placement]
  rcases h.like.inv.addOp o (word_storable ho.name) with ⟨g, -⟩ | ⟨-, -, c', g1, g2, g3, g4, g5, g6⟩
  · rw [hf, hcl] at g
    simp at g
  · rw [h.length] at g3
    refine ⟨c', g1, ⟨h.like.addOp ho g1, ?_, ?_⟩, ?_, g3⟩
    · obtain ⟨as, h1, h2⟩ := h.ops
      refine ⟨as ++ [c.nextAddr], by simp [h1], ?_⟩
      rw [g3, h2, List.zip_append h1, List.append_assoc]
      rfl
    · intro u hu
      rcases List.mem_append.mp hu with hu | hu
      · exact h.user u hu
      · simp only [List.mem_singleton] at hu
        subst hu
        exact ⟨ho.placement, ho.prec, ho.name⟩
    · unfold Ctx.deref
      have hm : (c.nextAddr, ({ o with id := 58 + us.length } : Op)) ∈ c'.ops := by rw [g3]; simp
      have := Ctx.find_addr g2.nodup hm
      simp only at this
      rw [this]

/-- User functions have different names. -/
theorem Holds.nodup {c : Ctx} {us : List Op} (h : Holds c us) : (us.map (·.name)).Nodup := by
  have hrel := (h.like.inv.rel .function).nodup
  obtain ⟨as, h1, h2⟩ := h.ops
  rw [h2] at hrel
  unfold Ctx.entries at hrel
  rw [List.filter_append, List.map_append, List.map_append, List.nodup_append] at hrel
  have := hrel.2.1
  rw [List.filter_eq_self.mpr] at this
  · rw [List.map_map] at this
    have e : List.map ((fun x : Str × Nat => x.1) ∘ fun p : Nat × Op => (p.2.name, p.1)) (as.zip us)
        = us.map (·.name) := by
      conv => rhs; rw [← zip_snd h1, List.map_map]
      rfl
    rw [e] at this
    exact this
  · intro p hp
    have : p.2 ∈ us := by
      have := List.mem_map_of_mem (f := (·.2)) hp
      rwa [zip_snd h1] at this
    simp [(h.user _ this).placement]

/-- User functions do not have names of built-in functions. -/
theorem Holds.notBuiltin {c : Ctx} {us : List Op} (h : Holds c us) {u : Op} (hu : u ∈ us) :
    Ctx.findOp builtin u.name .function = none := by
  have hrel := (h.like.inv.rel .function).nodup
  obtain ⟨as, h1, h2⟩ := h.ops
  rw [h2] at hrel
  unfold Ctx.entries at hrel
  rw [List.filter_append, List.map_append, List.map_append, List.nodup_append] at hrel
  cases hf : Ctx.findOp builtin u.name .function with
  | none => rfl
  | some p =>
    exfalso
    obtain ⟨m1, m2, m3⟩ := Ctx.findOp_mem hf
    obtain ⟨q, hq, rfl⟩ : ∃ q ∈ as.zip us, q.2 = u := by
      rw [← zip_snd h1] at hu
      exact List.mem_map.mp hu
    refine hrel.2.2 p.2.name ?_ q.2.name ?_ m2
    · exact List.mem_map.mpr ⟨(p.2.name, p.1), List.mem_map.mpr ⟨p, List.mem_filter.mpr ⟨m1, by simp [m3]⟩, rfl⟩, rfl⟩
    · exact List.mem_map.mpr ⟨(q.2.name, q.1), List.mem_map.mpr ⟨q, List.mem_filter.mpr
        ⟨hq, by simp [(h.user _ hu).placement]⟩, rfl⟩, rfl⟩

/-- `deleteOp` of a user function. -/
theorem Holds.deleteOp {c : Ctx} {us : List Op} (h : Holds c us) {u : Op} (hu : u ∈ us) :
    ∃ c', c.deleteOp u.name .function = .ok (c', true) ∧
      Holds c' (us.filter fun o => o.name != u.name) ∧
      ∃ a, (a, u) ∈ c.ops ∧ c'.ops = c.ops.filter (fun q => q.1 != a) := by
  have hb := h.notBuiltin hu
  have hnd := h.nodup
  obtain ⟨as, h1, h2⟩ := h.ops
  have hfind : ∃ p, Ctx.findOp c.ops u.name .function = some p ∧ p ∈ as.zip us ∧ p.2 = u := by
    rw [h2, findOp_append, hb, Option.none_or]
    obtain ⟨q, hq, rfl⟩ : ∃ q ∈ as.zip us, q.2 = u := by
      rw [← zip_snd h1] at hu
      exact List.mem_map.mp hu
    cases hf : Ctx.findOp (as.zip us) q.2.name .function with
    | none =>
      have := List.find?_eq_none.mp hf q hq
      simp [(h.user _ hu).placement] at this
    | some p =>
      obtain ⟨m1, m2, m3⟩ := Ctx.findOp_mem hf
      refine ⟨p, rfl, m1, ?_⟩
      have hp : p.2 ∈ us := by
        have := List.mem_map_of_mem (f := (·.2)) m1
        rwa [zip_snd h1] at this
      exact List.inj_on_of_nodup_map hnd hp hu m2
  obtain ⟨p, hf, hpm, rfl⟩ := hfind
  rcases h.like.inv.deleteOp p.2.name .function with ⟨g, -⟩ | ⟨q, hq, c', g1, g2, g3, g4, g5, g6⟩
  · rw [hf] at g; cases g
  · rw [hf] at hq
    cases hq
    refine ⟨c', g1, ⟨h.like.deleteOp hb g1, ?_, ?_⟩, p.1, (Ctx.findOp_mem hf).1, g3⟩
    · -- the remaining operators
      have hadd : ∀ q ∈ as.zip us, (q.1 != p.1) = (q.2.name != p.2.name) := by
        intro q hq
        have hand := h.like.inv.nodup
        rw [h2, List.map_append, List.nodup_append] at hand
        have hinj := List.inj_on_of_nodup_map hand.2.1
        have hinj2 : ∀ x ∈ as.zip us, ∀ y ∈ as.zip us, x.2.name = y.2.name → x = y := by
          have : ((as.zip us).map fun x => x.2.name).Nodup := by
            have e : (as.zip us).map (fun x => x.2.name) = us.map (·.name) := by
              conv => rhs; rw [← zip_snd h1, List.map_map]
              rfl
            rw [e]; exact hnd
          intro x hx y hy
          exact List.inj_on_of_nodup_map this hx hy
        by_cases he : q = p
        · subst he; simp
        · have e1 : q.1 ≠ p.1 := fun e => he (hinj hq hpm e)
          have e2 : q.2.name ≠ p.2.name := fun e => he (hinj2 q hq p hpm e)
          rw [bne_iff_ne.mpr e1, bne_iff_ne.mpr e2]
      refine ⟨((as.zip us).filter fun q => q.2.name != p.2.name).map (·.1), ?_, ?_⟩
      · rw [List.length_map, ← List.length_map (f := (·.2))]
        congr 1
        rw [show (fun q : Nat × Op => q.2.name != p.2.name) = (fun o : Op => o.name != p.2.name) ∘ (·.2) from rfl,
          ← List.filter_map, zip_snd h1]
      · rw [g3, h2, List.filter_append]
        congr 1
        · rw [List.filter_eq_self]
          intro q hq
          simp only [bne_iff_ne, ne_eq]
          intro hqp
          have hand := h.like.inv.nodup
          rw [h2, List.map_append, List.nodup_append] at hand
          exact hand.2.2 q.1 (List.mem_map_of_mem hq) p.1 (List.mem_map_of_mem hpm) hqp
        · rw [List.filter_congr hadd]
          have e2 : (us.filter fun o => o.name != p.2.name)
              = ((as.zip us).filter fun q => q.2.name != p.2.name).map (·.2) := by
            rw [show (fun q : Nat × Op => q.2.name != p.2.name) = (fun o : Op => o.name != p.2.name) ∘ (·.2) from rfl,
              ← List.filter_map, zip_snd h1]
          rw [e2]
          generalize (as.zip us).filter (fun q => q.2.name != p.2.name) = l
          induction l with
          | nil => rfl
          | cons x l ih => simpa using ih
    · intro v hv
      exact h.user v (List.mem_filter.mp hv).1

/-- Deleting the function that was added last. -/
theorem Holds.undo {c c' : Ctx} {us : List Op} {o : Op} (h : Holds c us) (h' : Holds c' (us ++ [o]))
    (hops : c'.ops = c.ops ++ [(c.nextAddr, o)]) :
    ∃ d, c'.deleteOp o.name .function = .ok (d, true) ∧ Holds d us ∧ d.ops = c.ops := by
  obtain ⟨d, h1, h2, a, h3, h4⟩ := h'.deleteOp (u := o) (by simp)
  have hnd := h'.nodup
  have ha : a = c.nextAddr := by
    have hand := h'.like.inv.nodup
    rw [hops] at h3 hand
    rcases List.mem_append.mp h3 with h3 | h3
    · exfalso
      have hou : o ∈ us := by
        obtain ⟨as, e1, e2⟩ := h.ops
        rw [e2] at h3
        rcases List.mem_append.mp h3 with h3 | h3
        · have := h'.notBuiltin (u := o) (by simp)
          have hp := (h'.user o (by simp)).placement
          unfold Ctx.findOp at this
          have := List.find?_eq_none.mp this _ h3
          simp [hp] at this
        · have := List.mem_map_of_mem (f := (·.2)) h3
          rwa [zip_snd e1] at this
      rw [List.map_append, List.nodup_append] at hnd
      exact hnd.2.2 o.name (List.mem_map_of_mem hou) o.name (by simp) rfl
    · simpa using h3
  subst ha
  have hfilt : us.filter (fun v => v.name != o.name) = us := by
    rw [List.filter_eq_self]
    intro v hv
    rw [List.map_append, List.nodup_append] at hnd
    simpa using hnd.2.2 v.name (List.mem_map_of_mem hv) o.name (by simp)
  refine ⟨d, h1, ?_, ?_⟩
  · rw [List.filter_append, hfilt] at h2
    simpa using h2
  · rw [h4, hops, List.filter_append]
    have : c.ops.filter (fun q => q.1 != c.nextAddr) = c.ops := by
      rw [List.filter_eq_self]
      intro q hq
      have := h.like.inv.fresh q hq
      simp only [bne_iff_ne, ne_eq]
      omega
    rw [this]
    simp

end Verif
