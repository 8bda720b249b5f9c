import Verif.Lemmas.LinkedList

/-!
# Properties of linked lists (C06)
-/

namespace Verif.LinkedListProps
open ChainSpec
variable {α : Type}

theorem lastOr_ofLength (A : List (Nat × α)) (p : Nat × α) : lastOr none (A ++ [p]) = some p.1 := by
  rw [lastOr_append]; rfl

theorem exec_step {h : Heap α} {l : LList} {L L' : List (Nat × α)} {c : LList.Cmd α} (hr : LRep h l L)
    (hc : Step L c L') : ∃ h' l', l.exec h c = .ok (h', l') ∧ LRep h' l' L' := by
  cases hc with
  | append _ x a ha =>
    have e : L = L ++ [] := by simp
    rw [e] at hr ha
    obtain ⟨h', l', h1, h2⟩ := hr.insert x a ha
    exact ⟨h', l', by simpa [LList.exec, LList.append, hr.last] using h1, h2⟩
  | first _ x a ha =>
    obtain ⟨h', l', h1, h2⟩ := LRep.insert (A := []) hr x a ha
    exact ⟨h', l', h1, h2⟩
  | after A p B x a ha =>
    have e : A ++ p :: B = (A ++ [p]) ++ B := by simp
    rw [e] at hr ha
    obtain ⟨h', l', h1, h2⟩ := hr.insert x a ha
    rw [lastOr_ofLength] at h1
    exact ⟨h', l', h1, by simpa using h2⟩
  | insertAt A B x a ha =>
    obtain ⟨h', l', h1, h2⟩ := hr.insert x a ha
    refine ⟨h', l', ?_, h2⟩
    rcases List.eq_nil_or_concat A with rfl | ⟨A', ⟨p, y⟩, rfl⟩
    · exact h1
    · rw [List.concat_eq_append] at *
      rw [lastOr_ofLength] at h1
      have hg : LList.getNode h l A'.length = .ok (some p) :=
        LRep.getNode (B := B) (y := y) (by simpa using hr)
      simp only [LList.exec, LList.insertAt, List.length_append, List.length_singleton, Nat.add_sub_cancel, hg,
        if_neg (Nat.succ_ne_zero _), Res.bind_ok]
      exact h1
  | deleteNode A p B =>
    obtain ⟨q, y⟩ := p
    exact hr.delete
  | deleteAt A p B =>
    obtain ⟨q, y⟩ := p
    obtain ⟨h', l', h1, h2⟩ := hr.delete
    exact ⟨h', l', by simp only [LList.exec, LList.deleteAt, hr.getNode, Res.bind_ok, h1], h2⟩

theorem run_steps {h : Heap α} {l : LList} {L L' : List (Nat × α)} {cs : List (LList.Cmd α)} (hr : LRep h l L)
    (hc : Run L cs L') : ∃ h' l', l.run h cs = .ok (h', l') ∧ LRep h' l' L' := by
  induction hc generalizing h l with
  | nil L => exact ⟨h, l, rfl, hr⟩
  | cons hs _ ih =>
    obtain ⟨h1, l1, e1, r1⟩ := exec_step hr hs
    obtain ⟨h2, l2, e2, r2⟩ := ih r1
    exact ⟨h2, l2, by simp only [LList.run, e1, Res.bind_ok, e2], r2⟩

theorem chain_next {h : Heap α} {L : List (Nat × α)} {pv : Option Nat} (hs : Seg h pv L none) :
    Chain h (·.next) (headOr L none) L := by
  induction L generalizing pv with
  | nil => exact .nil
  | cons a L ih =>
    obtain ⟨p, x⟩ := a
    exact .cons (n := ⟨headOr L none, pv, x⟩) hs.1 (ih hs.2)

theorem chain_previous {h : Heap α} {L : List (Nat × α)} {nx : Option Nat} (hs : Seg h none L nx) :
    Chain h (·.previous) (lastOr none L) L.reverse := by
  induction L using List.reverseRecOn generalizing nx with
  | nil => exact .nil
  | append_singleton L a ih =>
    obtain ⟨p, x⟩ := a
    obtain ⟨h1, h2, _⟩ := Seg.append.1 hs
    rw [lastOr_append, List.reverse_append]
    exact .cons (n := ⟨nx, lastOr none L, x⟩) h2 (ih h1)

/-- **C06.**  After every history of insertions and deletions, with nodes at any
addresses `malloc` may choose, the chain from the first node, the chain backwards from the last one and the
count describe one and the same sequence, the one the operations produce; nothing else is
left allocated, and no operation touched a node that does not exist. -/
theorem C06_list (cs : List (LList.Cmd α)) (L : List (Nat × α)) (hc : Run [] cs L) :
    ∃ h l, LList.create.run (fun _ => none) cs = .ok (h, l) ∧
      Chain h (·.next) l.first L ∧ Chain h (·.previous) l.last L.reverse ∧ l.count = L.length ∧
      ∀ p, (h p).isSome ↔ p ∈ L.map Prod.fst := by
  obtain ⟨h, l, h1, h2⟩ := run_steps LRep.create hc
  refine ⟨h, l, h1, ?_, ?_, h2.count, fun p => ⟨fun hp => ?_, fun hp => ?_⟩⟩
  · rw [h2.first]; exact chain_next h2.seg
  · rw [h2.last]; exact chain_previous h2.seg
  · by_contra hn
    rw [h2.only p hn] at hp
    cases hp
  · obtain ⟨n, hn⟩ := h2.seg.mem hp
    simp [hn]

/-- The hypothesis is met: append, insert in front, insert in the middle, delete, and reuse of the
freed address. -/
example : Run ([] : List (Nat × Char))
    [.append 'a' 10, .insertAt 0 'b' 20, .insertAfter (some 20) 'c' 30, .deleteAt 1, .deleteNode 20, .append 'd' 20]
    [(10, 'a'), (20, 'd')] :=
  .cons (.append [] 'a' 10 (by simp)) <| .cons (.insertAt [] [(10, 'a')] 'b' 20 (by simp)) <|
  .cons (.after [] (20, 'b') [(10, 'a')] 'c' 30 (by simp)) <|
  .cons (.deleteAt [(20, 'b')] (30, 'c') [(10, 'a')]) <|
  .cons (.deleteNode [] (20, 'b') [(10, 'a')]) <| .cons (.append [(10, 'a')] 'd' 20 (by simp)) (.nil _)

/-- **C06**, lookup: the element at an index is found, whichever end the search starts from; an
index beyond the list fails the assertion. -/
theorem C06_lookup (h : Heap α) (l : LList) (L : List (Nat × α)) (hr : LRep h l L) (i : Nat) :
    (∀ hi : i < L.length, LList.getNode h l i = .ok (some L[i].1) ∧ LList.getAt h l i = .ok (some L[i].2)) ∧
    (L.length ≤ i → LList.getNode h l i = .defect) := by
  refine ⟨fun hi => ?_, fun hi => ?_⟩
  · have e : L = L.take i ++ (L[i].1, L[i].2) :: L.drop (i + 1) := by
      have h1 := List.take_append_drop i L
      rw [List.drop_eq_getElem_cons hi] at h1
      exact h1.symm
    have hl : (L.take i).length = i := by simp [Nat.le_of_lt hi]
    have hr' := hr
    rw [e] at hr'
    have hg := hr'.getNode
    rw [hl] at hg
    refine ⟨hg, ?_⟩
    have hn := (Seg.append.1 hr'.seg).2.1
    simp only [LList.getAt, hg, Res.bind_ok, Heap.load, hn, Res.pure_eq]
  · simp only [LList.getNode, hr.count, if_neg (Nat.not_lt.2 hi)]

/-- The memory and list of the lookups in the next example. -/
example : ∃ (h : Heap Char) (l : LList), LRep h l [(7, 'x'), (3, 'y'), (5, 'z')] ∧ LList.getAt h l 0 = .ok (some 'x') ∧
    LList.getAt h l 2 = .ok (some 'z') := by
  obtain ⟨h, l, _, hr⟩ := run_steps (L' := [(7, 'x'), (3, 'y'), (5, 'z')]) (LRep.create (α := Char))
    (.cons (.append [] 'x' 7 (by simp)) (.cons (.append [(7, 'x')] 'y' 3 (by simp))
      (.cons (.append [(7, 'x'), (3, 'y')] 'z' 5 (by simp)) (.nil _))))
  exact ⟨h, l, hr, ((C06_lookup h l _ hr 0).1 (by simp)).2, ((C06_lookup h l _ hr 2).1 (by simp)).2⟩

/-- A loop over `iterator_get_next` until NULL. -/
def iterate (h : Heap α) (l : LList) : Nat → Option Nat → Res (List α)
  | 0, _ => .ok []
  | fuel + 1, c => do
    match ← LList.next h l c with
    | (_, none) => pure []
    | (c', some x) => do
      let xs ← iterate h l fuel c'
      pure (x :: xs)

/-- **C06**, iteration: a pass meets the elements in order. -/
theorem C06_iterator (h : Heap α) (l : LList) (L : List (Nat × α)) (hr : LRep h l L) (fuel : Nat)
    (hf : L.length < fuel) : iterate h l fuel none = .ok (L.map Prod.snd) := by
  have key : ∀ (B A : List (Nat × α)) (fuel : Nat), L = A ++ B → B.length < fuel →
      iterate h l fuel (lastOr none A) = .ok (B.map Prod.snd) := by
    intro B
    induction B with
    | nil =>
      intro A fuel e hf
      obtain ⟨fuel, rfl⟩ := Nat.exists_eq_succ_of_ne_zero (Nat.ne_of_gt hf)
      have : LList.nodeAfter h l (lastOr none A) = .ok none := by
        cases hl : lastOr none A with
        | none =>
          have := lastOr_none hl; subst this
          simp [LList.nodeAfter, hr.first, e, headOr]
        | some b =>
          rcases lastOr_some hl with ⟨_, h0⟩ | ⟨A', y, rfl⟩
          · cases h0
          · have hs := hr.seg
            rw [e, List.append_nil] at hs
            have := (Seg.append.1 hs).2.1
            simp only [headOr] at this
            simp [LList.nodeAfter, Heap.load, this]
      simp [iterate, LList.next, this]
    | cons b B ih =>
      intro A fuel e hf
      obtain ⟨p, x⟩ := b
      obtain ⟨fuel, rfl⟩ := Nat.exists_eq_succ_of_ne_zero (Nat.ne_of_gt (Nat.lt_of_le_of_lt (Nat.zero_le _) hf))
      have hs := hr.seg
      rw [e] at hs
      have hp := (Seg.append.1 hs).2.1
      have hna : LList.nodeAfter h l (lastOr none A) = .ok (some p) := by
        cases hl : lastOr none A with
        | none =>
          have := lastOr_none hl; subst this
          simp [LList.nodeAfter, hr.first, e, headOr]
        | some b =>
          rcases lastOr_some hl with ⟨_, h0⟩ | ⟨A', y, rfl⟩
          · cases h0
          · have := (Seg.append.1 (Seg.append.1 hs).1).2.1
            simp only [headOr] at this
            simp [LList.nodeAfter, Heap.load, this]
      have hi := ih (A ++ [(p, x)]) fuel (by simp [e]) (by simp at hf; omega)
      rw [lastOr_append] at hi
      simp only [lastOr] at hi
      simp only [iterate, LList.next, hna, Heap.load, hp, Res.bind_ok, Res.pure_eq, hi, List.map_cons]
  exact key L [] fuel rfl hf

example : ∃ (h : Heap Char) (l : LList), iterate h l 9 none = .ok ['x', 'y'] := by
  obtain ⟨h, l, _, hr⟩ := run_steps (L' := [(7, 'x'), (3, 'y')]) (LRep.create (α := Char))
    (.cons (.append [] 'x' 7 (by simp)) (.cons (.append [(7, 'x')] 'y' 3 (by simp)) (.nil _)))
  exact ⟨h, l, C06_iterator h l _ hr 9 (by simp)⟩

/-- **C06**, release: `list_destroy` frees every node, once, and reads none after that. -/
theorem C06_destroy (h : Heap α) (l : LList) (L : List (Nat × α)) (hr : LRep h l L) :
    LList.destroy h l = .ok fun _ => none := by
  have key : ∀ (L : List (Nat × α)) (h : Heap α) (pv : Option Nat), Seg h pv L none → (L.map Prod.fst).Nodup →
      (∀ p, p ∉ L.map Prod.fst → h p = none) →
      LList.destroyFrom h L.length (headOr L none) = .ok fun _ => none := by
    intro L
    induction L with
    | nil =>
      intro h pv _ _ ho
      simp only [headOr, List.length_nil, LList.destroyFrom, Res.ok.injEq]
      funext p
      exact ho p (by simp)
    | cons a L ih =>
      obtain ⟨p, x⟩ := a
      intro h pv hs hn ho
      simp only [List.map_cons, List.nodup_cons] at hn
      simp only [headOr, List.length_cons, LList.destroyFrom, Heap.free, Heap.load, hs.1, Res.bind_ok, Res.pure_eq]
      refine ih _ (some p) (hs.2.congr fun q hq => if_neg fun (e : q = p) => hn.1 (e ▸ hq)) hn.2 fun q hq => ?_
      by_cases e : q = p
      · simp [e]
      · simp only [if_neg e]
        exact ho q (by simp only [List.map_cons, List.mem_cons, not_or]; exact ⟨e, hq⟩)
  rw [LList.destroy, hr.count, hr.first]
  exact key L h none hr.seg hr.nodup hr.only

example : ∃ (h : Heap Char) (l : LList), (h 7).isSome ∧ LList.destroy h l = .ok fun _ => none := by
  obtain ⟨h, l, _, hr⟩ := run_steps (L' := [(7, 'x'), (3, 'y')]) (LRep.create (α := Char))
    (.cons (.append [] 'x' 7 (by simp)) (.cons (.append [(7, 'x')] 'y' 3 (by simp)) (.nil _)))
  obtain ⟨n, hn⟩ := hr.seg.mem (p := 7) (by simp)
  exact ⟨h, l, by simp [hn], C06_destroy h l _ hr⟩

end Verif.LinkedListProps
