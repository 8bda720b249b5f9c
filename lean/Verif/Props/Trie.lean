import Verif.Lemmas.Trie

/-!
# C01, C02, C03: the trie is a finite map

Specification: an association list, changed by the naive operations below.  A
history is an arbitrary list of insertions (with payload) and removals.
-/

namespace Verif.TrieProps
variable {α : Type}

/-- One call of the trie interface. -/
inductive TrieOp (α : Type) where
  | add (s : Str) (a : α)
  | remove (s : Str)

/-- Specification state: stored strings with their payload, oldest first. -/
abbrev SpecMap (α : Type) := List (Str × α)

/-- Payload of `s` in the specification. -/
def SpecMap.get (m : SpecMap α) (s : Str) : Option α :=
  (m.find? (fun p => p.1 == s)).map (·.2)

/-- Specification of one call: insertion of a present string changes nothing. -/
def specStep (m : SpecMap α) : TrieOp α → SpecMap α
  | .add s a => if m.any (fun p => p.1 == s) then m else m ++ [(s, a)]
  | .remove s => m.filter (fun p => p.1 != s)

/-- The C calls: `p = trie_add_str(t, s); if (p) *p = a;`, or `trie_remove_str(t, s)`. -/
def step (t : Trie α) : TrieOp α → Res (Trie α)
  | .add s a => do
    let (t', isNew) ← t.addStr s
    if isNew then do
      let r ← Trie.setDataNode t'.root s a
      pure ⟨t'.count, r⟩
    else pure t'
  | .remove s => t.removeStr s

/-- Running a whole history of calls on a trie. -/
def run (t : Trie α) : List (TrieOp α) → Res (Trie α)
  | [] => .ok t
  | o :: os => do
    let t' ← step t o
    run t' os

/-- Characters the trie can store: '!' to '|'. -/
def Storable (s : Str) : Prop := ∀ c ∈ s, '!' ≤ c ∧ c ≤ '|'

instance (s : Str) : Decidable (Storable s) := by unfold Storable; infer_instance

/-- Only storable strings are inserted. -/
def OpLegal : TrieOp α → Prop
  | .add s _ => Storable s
  | .remove _ => True

theorem storable_legal {s : Str} (h : Storable s) : Trie.Legal s := by
  intro c hc
  have := h c hc
  have h1 : ('!' : Char).toNat ≤ c.toNat := this.1
  have h2 : c.toNat ≤ ('|' : Char).toNat := this.2
  have e1 : ('!' : Char).toNat = 33 := by decide
  have e2 : ('|' : Char).toNat = 124 := by decide
  omega

/-- Simulation relation between trie and specification. -/
structure Rel (t : Trie α) (m : SpecMap α) : Prop where
  wf : Trie.WF false t.root
  nodup : (m.map (·.1)).Nodup
  mem : ∀ s, Trie.mem t.root s = true ↔ s ∈ m.map (·.1)
  val : ∀ s a, (s, a) ∈ m → Trie.val t.root s = some a
  count : t.count = m.length

theorem rel_create : Rel (Trie.create : Trie α) [] :=
  ⟨Trie.wf_fresh, by simp, by simp [Trie.create], by simp, rfl⟩

theorem any_key (m : SpecMap α) (s : Str) :
    m.any (fun p => p.1 == s) = true ↔ s ∈ m.map (·.1) := by
  rw [List.any_eq_true, List.mem_map]
  simp only [beq_iff_eq]

theorem step_rel {t : Trie α} {m : SpecMap α} (h : Rel t m) (o : TrieOp α) (ho : OpLegal o) :
    ∃ t', step t o = .ok t' ∧ Rel t' (specStep m o) := by
  cases o with
  | add s a =>
    have hs : Trie.Legal s := storable_legal ho
    obtain ⟨n', h1, h2, h3⟩ := Trie.addNode_spec t.root s hs
    by_cases hm : Trie.mem t.root s = true
    · have hd := Trie.addNode_dup t.root s hm
      refine ⟨t, ?_, ?_⟩
      · simp [step, Trie.addStr, hd]
      · have : m.any (fun p => p.1 == s) = true := (any_key m s).mpr ((h.mem s).mp hm)
        simpa [specStep, this] using h
    · have hm' : Trie.mem t.root s = false := by simpa using hm
      have hmem' : Trie.mem n' s = true := by rw [h2]; simp
      obtain ⟨n'', g1, g2, g3, g4⟩ := Trie.setDataNode_spec n' s a hmem'
      have hnin : s ∉ m.map (·.1) := fun hc => hm ((h.mem s).mpr hc)
      have hany : m.any (fun p => p.1 == s) = false := by
        rw [Bool.eq_false_iff]; exact fun hc => hnin ((any_key m s).mp hc)
      refine ⟨⟨t.count + 1, n''⟩, ?_, ?_⟩
      · simp [step, Trie.addStr, h1, hm', g1]
      · simp only [specStep, hany]
        refine ⟨?_, ?_, ?_, ?_, ?_⟩
        · exact (Trie.setDataNode_wf n' s a
            (Trie.WF.of_true (Trie.addNode_wf t.root s h.wf h1)) g1)
        · simp only [Bool.false_eq_true, if_false, List.map_append, List.map_cons, List.map_nil]
          rw [List.nodup_append]
          refine ⟨h.nodup, by simp, ?_⟩
          intro x hx y hy
          simp only [List.mem_singleton] at hy
          subst hy
          exact fun hxy => hnin (hxy ▸ hx)
        · intro s'
          rw [g2, h2, Bool.or_eq_true, h.mem s']
          simp
        · intro s' a' hin
          simp only [Bool.false_eq_true, if_false, List.mem_append, List.mem_singleton,
            Prod.mk.injEq] at hin
          rcases hin with hin | ⟨rfl, rfl⟩
          · have hs'm : s' ∈ m.map (·.1) := List.mem_map.mpr ⟨_, hin, rfl⟩
            have hne : s' ≠ s := fun hc => hnin (hc ▸ hs'm)
            rw [g4 s' hne, h3 s' ((h.mem s').mpr hs'm)]
            exact h.val s' a' hin
          · exact g3
        · simp [h.count]
  | remove s =>
    obtain ⟨h1, h2, h3, h4, h5⟩ := Trie.removeNode_spec t.root false s h.wf
    rcases hr : Trie.removeNode t.root false s with ⟨dec, o⟩
    rw [hr] at h1 h2 h3 h4 h5
    cases o with
    | none => exact absurd rfl (h5 rfl)
    | some r =>
      simp only [Trie.memO, Trie.valO] at h1 h2 h3 h4
      refine ⟨⟨if dec then t.count - 1 else t.count, r⟩, by simp [step, Trie.removeStr, hr], ?_⟩
      have hmem' : ∀ s', Trie.mem r s' = true ↔ s' ∈ (m.filter (fun p => p.1 != s)).map (·.1) := by
        intro s'
        rw [h2, Bool.and_eq_true, h.mem s']
        simp only [List.mem_map, List.mem_filter, bne_iff_ne]
        constructor
        · rintro ⟨⟨p, hp, rfl⟩, hne⟩
          exact ⟨p, ⟨hp, hne⟩, rfl⟩
        · rintro ⟨p, ⟨hp, hne⟩, rfl⟩
          exact ⟨⟨p, hp, rfl⟩, hne⟩
      refine ⟨h4 r rfl, ?_, hmem', ?_, ?_⟩
      · exact (List.Sublist.map _ List.filter_sublist).nodup h.nodup
      · intro s' a' hin
        have hin' := (List.mem_filter.mp hin).1
        have : Trie.mem r s' = true := (hmem' s').mpr (List.mem_map.mpr ⟨_, hin, rfl⟩)
        rw [h3 s' this]
        exact h.val s' a' hin'
      · simp only [specStep]
        have hlen : (m.filter (fun p => p.1 != s)).length + (if s ∈ m.map (·.1) then 1 else 0)
            = m.length := by
          have hnd := h.nodup
          clear h h1 h2 h3 h4 h5 hmem' hr
          induction m with
          | nil => simp
          | cons p m ih =>
            simp only [List.map_cons, List.nodup_cons] at hnd
            have ih := ih hnd.2
            by_cases hp : p.1 = s
            · subst hp
              have : (m.filter (fun q => q.1 != p.1)).length = m.length := by
                simpa [hnd.1] using ih
              simp [this]
            · have : (s ∈ (p :: m).map (·.1)) ↔ s ∈ m.map (·.1) := by
                simp [Ne.symm hp]
              simp only [this, List.filter_cons, bne_iff_ne, ne_eq, hp, not_false_eq_true, if_true,
                List.length_cons]
              omega
        have hdec : dec = true ↔ s ∈ m.map (·.1) := by rw [h1, h.mem s]
        by_cases hd : dec = true
        · have := hdec.mp hd
          simp only [this, if_true] at hlen
          simp [hd, h.count]
          omega
        · have hns : s ∉ m.map (·.1) := fun hc => hd (hdec.mpr hc)
          simp only [hns, if_false] at hlen
          have hdf : dec = false := by simpa using hd
          simp [hdf, h.count]
          omega

theorem run_rel {t : Trie α} {m : SpecMap α} (h : Rel t m) (os : List (TrieOp α))
    (hos : ∀ o ∈ os, OpLegal o) :
    ∃ t', run t os = .ok t' ∧ Rel t' (os.foldl specStep m) := by
  induction os generalizing t m with
  | nil => exact ⟨t, rfl, h⟩
  | cons o os ih =>
    obtain ⟨t1, h1, h2⟩ := step_rel h o (hos o List.mem_cons_self)
    obtain ⟨t2, h3, h4⟩ := ih h2 (fun o' ho' => hos o' (List.mem_cons_of_mem _ ho'))
    exact ⟨t2, by simp [run, h1, h3], h4⟩

theorem Rel.get {t : Trie α} {m : SpecMap α} (h : Rel t m) (s : Str) :
    m.get s = if Trie.mem t.root s then Trie.val t.root s else none := by
  unfold SpecMap.get
  cases hf : m.find? (fun p => p.1 == s) with
  | none =>
    have : Trie.mem t.root s = false := by
      rw [Bool.eq_false_iff]
      intro hm
      obtain ⟨p, hp, hps⟩ := List.mem_map.mp ((h.mem s).mp hm)
      have := (List.find?_eq_none.mp hf) p hp
      simp [hps] at this
    simp [this]
  | some p =>
    have hp := List.mem_of_find?_eq_some hf
    have hps := List.find?_some hf
    simp only [beq_iff_eq] at hps
    have hm : Trie.mem t.root s = true := (h.mem s).mpr (List.mem_map.mpr ⟨p, hp, hps⟩)
    have := h.val s p.2 (by rw [← hps]; exact hp)
    simp [hm, this]

/-- **C01.** After any history of insertions of storable strings and removals of
arbitrary strings (no undefined behaviour and no defect occurs), membership,
payload and count are those of the specification map. -/
theorem C01_trie_refines_map (os : List (TrieOp α)) (hos : ∀ o ∈ os, OpLegal o) :
    ∃ t, run (Trie.create : Trie α) os = .ok t ∧
      (∀ s, (t.contains s).1 = ((os.foldl specStep []).get s).isSome) ∧
      (∀ s, (t.contains s).1 = true → (t.contains s).2 = (os.foldl specStep []).get s) ∧
      t.count = (os.foldl specStep []).length := by
  obtain ⟨t, h1, h2⟩ := run_rel rel_create os hos
  refine ⟨t, h1, ?_, ?_, h2.count⟩
  · intro s
    rw [h2.get s, (Trie.contains_spec t s).1]
    by_cases hm : Trie.mem t.root s = true
    · obtain ⟨p, hp, hps⟩ := List.mem_map.mp ((h2.mem s).mp hm)
      have := h2.val s p.2 (by rw [← hps]; exact hp)
      simp [hm, this]
    · simp [Bool.eq_false_iff.mpr hm]
  · intro s hc
    rw [(Trie.contains_spec t s).1] at hc
    rw [h2.get s, (Trie.contains_spec t s).2 hc]
    simp [hc]

/-- **C01**, duplicates: adding a string reported as contained returns NULL and
leaves the trie as it is. -/
theorem C01_duplicate_add (t : Trie α) (s : Str) (h : (t.contains s).1 = true) :
    t.addStr s = .ok (t, false) := by
  rw [(Trie.contains_spec t s).1] at h
  simp [Trie.addStr, Trie.addNode_dup t.root s h]

/-- **C01**, contract: a string with a character outside '!'..'|' makes the
program exit with a defect message instead of corrupting the trie. -/
theorem C01_unstorable_defect (t : Trie α) (s : Str) (h : ¬ Storable s) :
    t.addStr s = .defect := by
  have : ¬ Trie.Legal s := by
    intro hl
    apply h
    intro c hc
    have h' := hl c hc
    constructor
    · show ('!' : Char).toNat ≤ c.toNat
      have e1 : ('!' : Char).toNat = 33 := by decide
      omega
    · show c.toNat ≤ ('|' : Char).toNat
      have e2 : ('|' : Char).toNat = 124 := by decide
      omega
  simp [Trie.addStr, Trie.addNode_illegal t.root s this]

/-- **C02.** After any history the longest-prefix query returns the length of the
longest non-empty stored prefix of the text (0 if there is none) and, if there
is one, its payload. -/
theorem C02_longest_prefix (os : List (TrieOp α)) (hos : ∀ o ∈ os, OpLegal o) :
    ∃ t, run (Trie.create : Trie α) os = .ok t ∧
      ∀ s, (t.longestPrefix s).1 ≤ s.length ∧
        ((t.longestPrefix s).1 ≠ 0 →
          ((os.foldl specStep []).get (s.take (t.longestPrefix s).1)).isSome ∧
          (t.longestPrefix s).2 = (os.foldl specStep []).get (s.take (t.longestPrefix s).1)) ∧
        (∀ j, (t.longestPrefix s).1 < j → j ≤ s.length →
          (os.foldl specStep []).get (s.take j) = none) := by
  obtain ⟨t, h1, h2⟩ := run_rel rel_create os hos
  refine ⟨t, h1, ?_⟩
  intro s
  obtain ⟨g1, g2, g3⟩ := Trie.longestPrefix_spec t s
  refine ⟨g1, ?_, ?_⟩
  · intro hne
    obtain ⟨g4, g5⟩ := g2 hne
    rw [h2.get, g4, if_pos rfl, ← g5]
    refine ⟨?_, rfl⟩
    rw [g5]
    obtain ⟨p, hp, hps⟩ := List.mem_map.mp ((h2.mem _).mp g4)
    have := h2.val p.1 p.2 hp
    rw [← hps]
    simp [this]
  · intro j hj hj'
    rw [h2.get, g3 j hj hj']
    simp

/-- Number of non-NULL successor pointers of a node. -/
def numNonNull (n : TNode α) : Nat := (List.finRange 92).countP (fun i => (n.next i).isSome)

/-- `m` is `n` or a node below `n`. -/
inductive Below : TNode α → TNode α → Prop where
  | refl (n) : Below n n
  | next {n m k i} : n.next i = some m → Below m k → Below n k

/-- **C03.** After any history every node's successor counter is exact, and every
node other than the root without successors ends a stored string. -/
theorem C03_no_dead_branches (os : List (TrieOp α)) (hos : ∀ o ∈ os, OpLegal o) :
    ∃ t, run (Trie.create : Trie α) os = .ok t ∧
      (∀ n, Below t.root n → n.numSucc.toNat = numNonNull n) ∧
      (∀ i n m, t.root.next i = some n → Below n m → numNonNull m = 0 → m.terminal = true) := by
  obtain ⟨t, h1, h2⟩ := run_rel rel_create os hos
  have hb : ∀ (n m : TNode α), Below n m → ∀ b, Trie.WF b n →
      m.numSucc.toNat = numNonNull m := by
    intro n m hnm
    induction hnm with
    | refl n => intro b hw; cases hw with | mk hk _ _ => exact hk
    | next hn _ ih =>
      intro b hw
      cases hw with
      | mk hk hl hs => exact ih true (hs _ _ hn)
  have hb2 : ∀ (n m : TNode α), Below n m → Trie.WF true n →
      numNonNull m = 0 → m.terminal = true := by
    intro n m hnm
    induction hnm with
    | refl n => intro hw; cases hw with | mk hk hl _ => exact hl rfl
    | next hn _ ih =>
      intro hw
      cases hw with
      | mk hk hl hs => exact ih (hs _ _ hn)
  refine ⟨t, h1, fun n hn => hb _ _ hn _ h2.wf, ?_⟩
  intro i n m hi hnm
  have hw := h2.wf
  rcases hroot : t.root with ⟨tt, k, d, f⟩
  rw [hroot] at hw hi
  cases hw with
  | mk hk hl hs => exact hb2 n m hnm (hs i n hi)

/-- **C03**, consequence: when everything has been removed again, all inner nodes
have been freed. -/
theorem C03_empty_again (os : List (TrieOp α)) (hos : ∀ o ∈ os, OpLegal o)
    (hempty : os.foldl specStep ([] : SpecMap α) = []) :
    ∃ t, run (Trie.create : Trie α) os = .ok t ∧ t.count = 0 ∧ t.root.terminal = false ∧
      t.root.numSucc = 0 ∧ ∀ i, t.root.next i = none := by
  obtain ⟨t, h1, h2⟩ := run_rel rel_create os hos
  rw [hempty] at h2
  have hno : ∀ s, Trie.mem t.root s = false := by
    intro s
    rw [Bool.eq_false_iff]
    intro h
    simpa using (h2.mem s).mp h
  have hnext : ∀ i, t.root.next i = none := by
    intro i
    by_contra hne
    obtain ⟨m, hm⟩ := Option.ne_none_iff_exists'.mp hne
    have hw := h2.wf
    rcases hroot : t.root with ⟨tt, k, d, f⟩
    rw [hroot] at hw hm
    cases hw with
    | mk hk hl hs =>
      obtain ⟨s, hs'⟩ := (hs i m hm).exists_mem
      obtain ⟨c, hc⟩ : ∃ c, charIndex c = some i := by
        refine ⟨Char.ofNat (i.val + 33), ?_⟩
        rw [Trie.charIndex_eq_some]
        have : (i.val + 33).isValidChar := by left; have := i.isLt; omega
        simp [Char.toNat, Char.ofNat, this, Char.ofNatAux]
        have := i.isLt
        omega
      have := hno (c :: s)
      rw [hroot, Trie.mem_cons] at this
      simp only [TNode.next_mk] at hm
      simp [hc, hm, hs'] at this
  refine ⟨t, h1, by simpa using h2.count, by simpa [Trie.mem_nil] using hno [], ?_, hnext⟩
  have hw := h2.wf
  rcases hroot : t.root with ⟨tt, k, d, f⟩
  rw [hroot] at hw hnext
  cases hw with
  | mk hk hl hs =>
    simp only [TNode.next_mk] at hnext
    have h0 : Trie.succCount f = 0 := by
      unfold Trie.succCount
      rw [List.countP_eq_zero]
      intro i _
      simp [hnext i]
    simp only [TNode.numSucc_mk]
    apply UInt8.toNat_inj.mp
    rw [hk, h0]; rfl

/-! Non-vacuity: a history with shared prefixes, duplicates and removals. -/

/-- Example history. -/
def exampleOps : List (TrieOp Nat) :=
  [.add ['+'] 1, .add ['+', '+'] 2, .add ['s', 'i', 'n'] 3, .add ['+'] 9, .remove ['+'],
   .remove ['s', 'i'], .add ['s'] 4]

example : ∀ o ∈ exampleOps, OpLegal o := by
  simp only [exampleOps, List.forall_mem_cons, OpLegal]
  exact ⟨by decide, by decide, by decide, by decide, trivial, trivial, by decide, by simp⟩

example : (exampleOps.foldl specStep []) = [(['+', '+'], 2), (['s', 'i', 'n'], 3), (['s'], 4)] := by
  decide

example : ∃ t, run (Trie.create : Trie Nat) exampleOps = .ok t ∧
    (t.contains ['+']).1 = false ∧ t.contains ['+', '+'] = (true, some 2) ∧
    t.longestPrefix ['s', 'i', 'n', 'h'] = (3, some 3) ∧
    t.longestPrefix ['s', 'i'] = (1, some 4) ∧ t.count = 3 :=
  ⟨_, rfl, by decide, by decide, by decide, by decide, rfl⟩

example : ([TrieOp.add ['a', 'b'] 1, .remove ['a', 'b']] : List (TrieOp Nat)).foldl specStep [] = [] := by
  decide

end Verif.TrieProps
