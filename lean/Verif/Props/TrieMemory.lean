import Verif.Props.Trie
import Verif.Lemmas.TrieHeap

/-!
# C100: the nodes of a trie in memory

The same histories as in `Props/Trie.lean`, now on nodes that are allocated, written and
freed.  Memory contains whatever else there is (`m0`), and `calloc` returns any address that
is not in use.
-/

namespace Verif.TrieMemory
open TrieHeap TrieOwn TrieProps
variable {α : Type}

/-- The C calls: `p = trie_add_str(t, s); if (p) *p = a;`, or `trie_remove_str(t, s)`. -/
def hstep (M : Malloc α) (t : HTrie) (m : Mem α) : TrieOp α → Out (HTrie × Mem α)
  | .add s a => do
    let (r, t, m) ← addStr M m t s
    match r with
    | none => pure (t, m)
    | some q => do
      let m ← setData m q a
      pure (t, m)
  | .remove s => removeStr m t s

/-- Running a whole history of calls on a trie. -/
def hrun (M : Malloc α) (t : HTrie) (m : Mem α) : List (TrieOp α) → Out (HTrie × Mem α)
  | [] => .ok (t, m)
  | o :: os => do
    let (t, m) ← hstep M t m o
    hrun M t m os

/-- `trie_create`, then the history. -/
def history (M : Malloc α) (m0 : Mem α) (os : List (TrieOp α)) : Out (HTrie × Mem α) :=
  hrun M (create M m0).1 (create M m0).2 os

/-- Memory holds the trie `v` besides what `m0` has. -/
structure Inv (m0 : Mem α) (t : HTrie) (m : Mem α) (v : Trie α) (S : Nat → Prop) : Prop where
  own : Own (get m) v.root t.first S
  count : t.count = v.count
  new : ∀ a, S a → get m0 a = none
  old : ∀ a, ¬ S a → get m a = get m0 a

theorem inv_create (M : Malloc α) (m0 : Mem α) :
    Inv m0 (create M m0).1 (create M m0).2 Trie.create (fun a => a = (create M m0).1.first) := by
  have hg := get_new M m0
  refine ⟨own_blank ?_, rfl, ?_, ?_⟩
  · show get (newNode M m0).2 (newNode M m0).1 = _
    rw [hg, if_pos rfl]
  · rintro a rfl
    exact new_fresh M m0
  · intro a ha
    exact (hg a).trans (if_neg ha)

theorem leads_next {g g' : Nat → Option (Cell α)}
    (h : ∀ a c, g a = some c → ∃ c', g' a = some c' ∧ c'.next = c.next) {p q : Nat} {s : Str}
    (H : Leads g p s q) : Leads g' p s q := by
  induction H with
  | here p => exact .here p
  | next hx hp hq _ ih =>
    obtain ⟨c', e1, e2⟩ := h _ _ hp
    exact .next hx e1 (e2 ▸ hq) ih

/-- What one call does: the value trie makes the same step, and the nodes of the strings that are
stored before and after it stay where they are. -/
theorem hstep_ok (M : Malloc α) {m0 : Mem α} {t : HTrie} {m : Mem α} {v : Trie α} {S : Nat → Prop}
    {sp : SpecMap α} (h : Inv m0 t m v S) (hr : Rel v sp) (o : TrieOp α) (ho : OpLegal o) :
    ∃ t' m' v' S', hstep M t m o = .ok (t', m') ∧ Inv m0 t' m' v' S' ∧ Rel v' (specStep sp o) ∧
      t'.first = t.first ∧
      ∀ s q, Trie.mem v'.root s = true → Leads (get m) t.first s q → Leads (get m') t.first s q := by
  obtain ⟨v', e1, e2⟩ := step_rel hr o ho
  cases o with
  | add s x =>
    have hs : Trie.Legal s := storable_legal ho
    obtain ⟨n', h1, h2, h3⟩ := Trie.addNode_spec v.root s hs
    obtain ⟨r, m1, S1, f1, f2, f3, f4, f5, f6, f7, f8⟩ := addLoop_ok M s _ _ _ _ _ _ h.own h1
    have hnew : ∀ a, S1 a → get m0 a = none := by
      intro a ha
      by_cases hS : S a
      · exact h.new a hS
      · rw [← h.old a hS]
        exact (f5 a ha).resolve_left hS
    have hold : ∀ a, ¬ S1 a → get m1 a = get m0 a := by
      intro a ha
      rw [f6 a ha]
      exact h.old a fun hS => ha (f4 a hS)
    simp only [step, Trie.addStr, h1, Res.bind_ok, Res.pure_eq] at e1
    simp only [hstep, addStr, f1, Out.bind_ok, Out.pure_eq]
    cases hm : Trie.mem v.root s with
    | true =>
      rw [hm] at e1 f2
      simp only [Bool.not_true, Bool.false_eq_true, if_false, Res.ok.injEq] at e1 f2
      have hr0 : r = none := by simpa using f2
      subst hr0
      subst e1
      exact ⟨_, m1, ⟨v.count, n'⟩, S1, rfl, ⟨f3, h.count, hnew, hold⟩, e2, rfl, fun s q _ hl => f7.path hl⟩
    | false =>
      rw [hm] at e1 f2
      simp only [Bool.not_false, if_true] at e1 f2
      obtain ⟨q, hq⟩ := Option.isSome_iff_exists.mp f2
      subst hq
      cases hd : Trie.setDataNode n' s x with
      | defect => rw [hd] at e1; cases e1
      | ub => rw [hd] at e1; cases e1
      | ok n'' =>
        rw [hd] at e1
        simp only [Res.bind_ok, Res.ok.injEq] at e1
        subst e1
        obtain ⟨m2, g1, g2, g3, g4, g5⟩ := setData_ok x f3 (f8 q rfl) hd
        simp only [g1, Out.bind_ok]
        refine ⟨_, m2, _, S1, rfl, ⟨g2, ?_, hnew, fun a ha => ?_⟩, e2, rfl, fun s' q' _ hl => ?_⟩
        · show (if true = true then t.count + 1 else t.count) = _
          rw [if_pos rfl, h.count]
        · rw [g4 a fun (e : a = q) => ha (e ▸ g3)]
          exact hold a ha
        · refine leads_next (g := get m1) (fun a c hc => ?_) (f7.path hl)
          by_cases ha : a = q
          · subst ha
            exact ⟨_, g5 c hc, rfl⟩
          · exact ⟨c, by rw [g4 a ha, hc], rfl⟩
  | remove s =>
    obtain ⟨m', f1, S', f2, f3, f4, f5, f6⟩ :=
      removeRec_ok s v.root m t.first 0 S false h.own hr.wf fun _ => rfl
    have hd0 : decide ((0 : Nat) ≠ 0) = false := by simp
    rw [hd0] at f1 f6
    simp only [step, Trie.removeStr] at e1
    rcases hrm : Trie.removeNode v.root false s with ⟨dec, o⟩
    rw [hrm] at e1 f1 f6
    cases o with
    | none => cases e1
    | some r =>
      simp only [Res.ok.injEq] at e1
      subst e1
      simp only [hstep, removeStr, f1, Out.bind_ok, Out.pure_eq]
      refine ⟨_, m', _, S', rfl, ⟨f6, ?_, fun a ha => h.new a (f2 a ha), fun a ha => ?_⟩, e2, rfl,
        fun s' q hm hl => ?_⟩
      · show (if dec then t.count - 1 else t.count) = (if dec then v.count - 1 else v.count)
        rw [h.count]
      · by_cases hS : S a
        · rw [f3 a hS ha, h.new a hS]
        · rw [f4 a hS, h.old a hS]
      · obtain ⟨q', c, k1, -⟩ := leads_mem f6 hm
        have := (f5.leads k1).unique hl
        exact this ▸ k1

theorem hrun_ok (M : Malloc α) {m0 : Mem α} (os : List (TrieOp α)) : ∀ {t : HTrie} {m : Mem α} {v : Trie α}
    {S : Nat → Prop} {sp : SpecMap α}, Inv m0 t m v S → Rel v sp → (∀ o ∈ os, OpLegal o) →
    ∃ t' m' v' S', hrun M t m os = .ok (t', m') ∧ Inv m0 t' m' v' S' ∧ Rel v' (os.foldl specStep sp) ∧
      t'.first = t.first ∧
      ∀ s q, (∀ o ∈ os, o ≠ .remove s) → Trie.mem v.root s = true → Leads (get m) t.first s q →
        Trie.mem v'.root s = true ∧ Leads (get m') t.first s q := by
  induction os with
  | nil => exact fun h hr _ => ⟨_, _, _, _, rfl, h, hr, rfl, fun _ _ _ h1 h2 => ⟨h1, h2⟩⟩
  | cons o os ih =>
    intro t m v S sp h hr hos
    obtain ⟨t1, m1, v1, S1, e1, e2, e3, e4, e5⟩ := hstep_ok M h hr o (hos o List.mem_cons_self)
    obtain ⟨t2, m2, v2, S2, f1, f2, f3, f4, f5⟩ := ih e2 e3 fun o' ho' => hos o' (List.mem_cons_of_mem _ ho')
    refine ⟨t2, m2, v2, S2, by simp [hrun, e1, f1], f2, f3, f4.trans e4, fun s q hno hm hl => ?_⟩
    have hm1 : Trie.mem v1.root s = true := by
      rw [e3.mem]
      have := (hr.mem s).mp hm
      cases o with
      | add s' x =>
        simp only [specStep]
        split
        · exact this
        · rw [List.map_append]
          exact List.mem_append_left _ this
      | remove s' =>
        have hne : s' ≠ s := fun e => hno _ List.mem_cons_self (by rw [e])
        obtain ⟨p, hp, hps⟩ := List.mem_map.mp this
        refine List.mem_map.mpr ⟨p, List.mem_filter.mpr ⟨hp, ?_⟩, hps⟩
        rw [hps]
        simpa using Ne.symm hne
    have := f5 s q (fun o' ho' => hno o' (List.mem_cons_of_mem _ ho')) hm1 (e4 ▸ e5 s q hm1 hl)
    exact e4 ▸ this

theorem history_ok (M : Malloc α) (m0 : Mem α) (os : List (TrieOp α)) (hos : ∀ o ∈ os, OpLegal o) :
    ∃ t m v S, history M m0 os = .ok (t, m) ∧ Inv m0 t m v S ∧ Rel v (os.foldl specStep []) := by
  obtain ⟨t, m, v, S, h1, h2, h3, -⟩ := hrun_ok M os (inv_create M m0) rel_create hos
  exact ⟨t, m, v, S, h1, h2, h3⟩

theorem get_contains {v : Trie α} {sp : SpecMap α} (h : Rel v sp) (s : Str) :
    (v.contains s).1 = (sp.get s).isSome ∧ ((v.contains s).1 = true → (v.contains s).2 = sp.get s) := by
  refine ⟨?_, fun hc => ?_⟩
  · rw [h.get s, (Trie.contains_spec v s).1]
    by_cases hm : Trie.mem v.root s = true
    · obtain ⟨p, hp, hps⟩ := List.mem_map.mp ((h.mem s).mp hm)
      have := h.val s p.2 (by rw [← hps]; exact hp)
      simp [hm, this]
    · simp [Bool.eq_false_iff.mpr hm]
  · rw [(Trie.contains_spec v s).1] at hc
    rw [h.get s, (Trie.contains_spec v s).2 hc]
    simp [hc]

/-- **C100.** Any history runs without an access to memory that is not allocated.  What was
allocated before is as it was.  Lookups and the count are those of the map, and the payload
found is in memory. -/
theorem C100_history (M : Malloc α) (m0 : Mem α) (os : List (TrieOp α)) (hos : ∀ o ∈ os, OpLegal o) :
    ∃ t m, history M m0 os = .ok (t, m) ∧ t.count = (os.foldl specStep []).length ∧
      (∀ a c, get m0 a = some c → get m a = some c) ∧
      ∀ s, ∃ q c, contains m t s = .ok (((os.foldl specStep []).get s).isSome, q) ∧
        get m q = some c ∧
        (((os.foldl specStep []).get s).isSome = true → c.data = (os.foldl specStep []).get s) := by
  obtain ⟨t, m, v, S, h1, h2, h3⟩ := history_ok M m0 os hos
  refine ⟨t, m, h1, h2.count.trans h3.count, fun a c hc => ?_, fun s => ?_⟩
  · have hS : ¬ S a := fun hS => by
      rw [h2.new a hS] at hc
      cases hc
    rw [h2.old a hS, hc]
  · obtain ⟨q, e1, ⟨c, e2, e3⟩, -⟩ := contains_ok h2.own v.count s
    obtain ⟨g1, g2⟩ := get_contains h3 s
    have hv : (⟨v.count, v.root⟩ : Trie α) = v := rfl
    rw [hv] at e1 e3
    rw [g1] at e1 g2
    exact ⟨q, c, e1, e2, fun h => e3.trans (g2 h)⟩

/-- **C100**, nothing leaks while the trie is in use: what a history has allocated and not freed
is the root or on the way to a string that is stored. -/
theorem C100_tidy (M : Malloc α) (m0 : Mem α) (os : List (TrieOp α)) (hos : ∀ o ∈ os, OpLegal o)
    {t : HTrie} {m : Mem α} (h : history M m0 os = .ok (t, m)) (a : Nat) (ha : get m a ≠ none)
    (h0 : get m0 a = none) :
    a = t.first ∨ ∃ s u, Leads (get m) t.first s a ∧
      ((os.foldl specStep []).get (s ++ u)).isSome = true := by
  obtain ⟨t', m', v, S, h1, h2, h3⟩ := history_ok M m0 os hos
  rw [h] at h1
  cases h1
  have hS : S a := by
    apply Classical.byContradiction
    intro hS
    rw [h2.old a hS] at ha
    exact ha h0
  obtain ⟨ptr, Ss, here, same, none, below, apart, disjoint, all⟩ := h2.own.inv
  rcases (all a).mp hS with h | ⟨i, hi⟩
  · exact .inl h
  · right
    have hw := h3.wf
    rcases hroot : v.root with ⟨tt, k, d, f⟩
    rw [hroot] at hw here same none below
    cases hw with
    | mk hk hl hs =>
    cases hf : f i with
    | none => exact absurd hi (none i hf a)
    | some c =>
      have hsame := same i
      simp only [TNode.next_mk] at hsame
      rw [hf] at hsame
      obtain ⟨q, hq⟩ := Option.isSome_iff_exists.mp hsame
      obtain ⟨s, u, e1, e2⟩ := own_reach (below i c q hf hq) (hs i c hf) a hi
      have hx : charIndex (Char.ofNat (i.val + 33)) = some i := by
        rw [Trie.charIndex_eq_some]
        have : (i.val + 33).isValidChar := by left; have := i.isLt; omega
        simp [Char.toNat, Char.ofNat, this, Char.ofNatAux]
        have := i.isLt
        omega
      refine ⟨Char.ofNat (i.val + 33) :: s, u, .next (charIndex_val hx) here hq e1, ?_⟩
      rw [← (get_contains h3 _).1, (Trie.contains_spec v _).1, hroot, List.cons_append, Trie.mem_cons]
      simp only [hx, TNode.next_mk, hf, e2]

/-- **C100**, release: after any history `trie_destroy` frees every node of the trie once and
leaves memory as it was before `trie_create`. -/
theorem C100_destroy (M : Malloc α) (m0 : Mem α) (os : List (TrieOp α)) (hos : ∀ o ∈ os, OpLegal o)
    {t : HTrie} {m : Mem α} (h : history M m0 os = .ok (t, m)) :
    ∃ N, ∀ fuel, N ≤ fuel → ∃ m', destroy fuel m t = .ok m' ∧ ∀ a, get m' a = get m0 a := by
  obtain ⟨t', m', v, S, h1, h2, h3⟩ := history_ok M m0 os hos
  rw [h] at h1
  cases h1
  obtain ⟨N, hN⟩ := destroyRec_ok h2.own
  refine ⟨N, fun fuel hf => ?_⟩
  obtain ⟨m', e1, e2, e3⟩ := hN fuel hf m fun _ _ => rfl
  refine ⟨m', e1, fun a => ?_⟩
  by_cases hS : S a
  · rw [e2 a hS, h2.new a hS]
  · rw [e3 a hS, h2.old a hS]

/-- **C100**, the pointer `trie_add_str` returns: NULL exactly for a string that is stored;
otherwise the payload that a lookup of the string finds from then on. -/
theorem C100_pointer (M : Malloc α) (m0 : Mem α) (os : List (TrieOp α)) (hos : ∀ o ∈ os, OpLegal o)
    {t : HTrie} {m : Mem α} (h : history M m0 os = .ok (t, m)) (s : Str) (hs : Storable s) :
    ∃ r t' m', addStr M m t s = .ok (r, t', m') ∧
      (r = none ↔ ((os.foldl specStep []).get s).isSome = true) ∧
      ∀ q, r = some q → contains m' t' s = .ok (true, q) := by
  obtain ⟨t1, m1, v, S, h1, h2, h3⟩ := history_ok M m0 os hos
  rw [h] at h1
  cases h1
  obtain ⟨n', e1, e2, e3⟩ := Trie.addNode_spec v.root s (storable_legal hs)
  obtain ⟨r, m', S1, f1, f2, f3, f4, f5, f6, f7, f8⟩ := addLoop_ok M s _ _ _ _ _ _ h2.own e1
  refine ⟨r, { t with count := if r.isSome then t.count + 1 else t.count }, m', ?_, ?_, ?_⟩
  · simp only [addStr, f1, Out.bind_ok, Out.pure_eq]
  · rw [← (get_contains h3 s).1, (Trie.contains_spec v s).1, ← Option.not_isSome_iff_eq_none, f2]
    simp
  · intro q hq
    obtain ⟨q', g1, -, g2⟩ := contains_ok (t := { t with count := if r.isSome then t.count + 1 else t.count })
      f3 0 s
    have hc : (Trie.contains ⟨0, n'⟩ s).1 = true := by
      rw [(Trie.contains_spec ⟨0, n'⟩ s).1]
      show Trie.mem n' s = true
      rw [e2]; simp
    rw [hc] at g1
    rw [g1, (g2 hc).unique (f8 q hq)]

/-- **C100**, payloads do not move: as long as a string is not removed, its payload stays at the
address where it was found first, whatever else is added and removed. -/
theorem C100_stable (M : Malloc α) (m0 : Mem α) (os1 os2 : List (TrieOp α))
    (h1 : ∀ o ∈ os1, OpLegal o) (h2 : ∀ o ∈ os2, OpLegal o) {t1 t2 : HTrie} {m1 m2 : Mem α}
    (hr1 : history M m0 os1 = .ok (t1, m1)) (hr2 : hrun M t1 m1 os2 = .ok (t2, m2)) {s : Str} {q : Nat}
    (hc : contains m1 t1 s = .ok (true, q)) (hno : ∀ o ∈ os2, o ≠ .remove s) :
    contains m2 t2 s = .ok (true, q) := by
  obtain ⟨t', m', v, S, g1, g2, g3⟩ := history_ok M m0 os1 h1
  rw [hr1] at g1
  cases g1
  obtain ⟨q', e1, -, e2⟩ := contains_ok g2.own v.count s
  rw [hc] at e1
  simp only [Out.ok.injEq, Prod.mk.injEq] at e1
  obtain ⟨e3, rfl⟩ := e1
  have hv : (⟨v.count, v.root⟩ : Trie α) = v := rfl
  rw [hv] at e2 e3
  obtain ⟨t', m', v2, S2, k1, k2, k3, k4, k5⟩ := hrun_ok M os2 g2 g3 h2
  rw [hr2] at k1
  cases k1
  obtain ⟨l1, l2⟩ := k5 s q hno (by rw [← (Trie.contains_spec v s).1, ← e3]) (e2 e3.symm)
  obtain ⟨q2, n1, -, n2⟩ := contains_ok k2.own v2.count s
  have hv2 : (⟨v2.count, v2.root⟩ : Trie α) = v2 := rfl
  rw [hv2] at n1 n2
  have hm : (v2.contains s).1 = true := by rw [(Trie.contains_spec v2 s).1, l1]
  rw [hm] at n1
  rw [n1, (n2 hm).unique (k4 ▸ l2)]

/-- **C100**, contract: a string that cannot be stored makes the program exit with a defect
message, whatever the trie holds. -/
theorem C100_unstorable (M : Malloc α) (m0 : Mem α) (os : List (TrieOp α)) (hos : ∀ o ∈ os, OpLegal o)
    {t : HTrie} {m : Mem α} (h : history M m0 os = .ok (t, m)) (s : Str) (hs : ¬ Storable s) :
    addStr M m t s = .defect := by
  obtain ⟨t1, m1, v, S, h1, h2, h3⟩ := history_ok M m0 os hos
  rw [h] at h1
  cases h1
  have hd := C01_unstorable_defect v s hs
  have : Trie.addNode v.root s = .defect := by
    simp only [Trie.addStr] at hd
    cases hn : Trie.addNode v.root s with
    | defect => rfl
    | ub => rw [hn] at hd; cases hd
    | ok w => obtain ⟨a, b⟩ := w; rw [hn] at hd; cases hd
  simp only [addStr, addLoop_defect M s _ _ _ _ h2.own this]
  rfl

/-! Non-vacuity: an allocator that reuses the lowest free address, in a memory that is not empty. -/

/-- An address above all that are in use. -/
def above : Mem Nat → Nat
  | [] => 1
  | c :: cs => max (c.1 + 1) (above cs)

theorem above_fresh : ∀ (m : Mem Nat), ∀ c ∈ m, c.1 < above m
  | [], _, h => by cases h
  | d :: m, c, h => by
    rcases List.mem_cons.mp h with rfl | h
    · simp only [above]; omega
    · have := above_fresh m c h
      simp only [above]; omega

/-- The lowest address from `k` on that is not in use; after `fuel` attempts one above all. -/
def lowest (m : Mem Nat) : (fuel k : Nat) → Nat
  | 0, _ => above m
  | fuel + 1, k => if m.any (fun c => c.1 = k) then lowest m fuel (k + 1) else k

theorem lowest_fresh (m : Mem Nat) : ∀ fuel k, ∀ c ∈ m, c.1 ≠ lowest m fuel k
  | 0, _, c, hc => Nat.ne_of_lt (above_fresh m c hc)
  | fuel + 1, k, c, hc => by
    simp only [lowest]
    split
    · exact lowest_fresh m fuel (k + 1) c hc
    · rename_i hn
      intro e
      exact hn (List.any_eq_true.mpr ⟨c, hc, by simpa using e⟩)

/-- Such an allocator. -/
def exampleMalloc : Malloc Nat :=
  ⟨fun m => lowest m (m.length + 1) 1, fun m => lowest_fresh m _ _⟩

/-- A memory with a node of someone else. -/
def exampleMem : Mem Nat := [(2, ⟨true, 7, some 99, fun _ => none⟩)]

/-- What a result leaves allocated. -/
def addresses : Out (HTrie × Mem Nat) → Option (List Nat)
  | .ok (_, m) => some (m.map (·.1))
  | _ => none

example : ∀ o ∈ exampleOps, OpLegal o := by
  simp only [exampleOps, List.forall_mem_cons, OpLegal]
  exact ⟨by decide, by decide, by decide, by decide, trivial, trivial, by decide, by simp⟩

example : addresses (history exampleMalloc exampleMem exampleOps) = some [7, 6, 5, 4, 3, 1, 2] := by
  decide +kernel

/-- The removed string's nodes are used again. -/
example : addresses (history exampleMalloc exampleMem
    [.add ['a', 'b'] 1, .add ['a'] 2, .remove ['a', 'b'], .add ['c'] 3]) = some [4, 3, 1, 2] := by
  decide +kernel

/-- The payload of "a" stays at 3. -/
example : (match history exampleMalloc exampleMem
      [.add ['a', 'b'] 1, .add ['a'] 2, .remove ['a', 'b'], .add ['c'] 3] with
    | .ok (t, m) =>
      match contains m t ['a'] with
      | .ok r => some (r, (get m r.2).bind (·.data))
      | _ => none
    | _ => none) = some ((true, 3), some 2) := by
  decide +kernel

example : (match history exampleMalloc exampleMem exampleOps with
    | .ok (t, m) =>
      match destroy 5 m t with
      | .ok m => some (m.map (·.1))
      | _ => none
    | _ => none) = some [2] := by
  decide +kernel

end Verif.TrieMemory
