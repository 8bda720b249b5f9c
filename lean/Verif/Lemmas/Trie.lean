import Verif.Model.Trie
import Mathlib.Data.List.FinRange
import Mathlib.Data.List.Nodup
import Mathlib.Data.List.Count

/-! Helper lemmas about the trie model. -/

namespace Verif
namespace Trie
variable {α : Type}

/-- All characters can be stored in a trie. -/
def Legal (s : Str) : Prop := ∀ c ∈ s, 33 ≤ c.toNat ∧ c.toNat < 125

instance (s : Str) : Decidable (Legal s) := by unfold Legal; infer_instance

theorem charIndex_eq_some {c : Char} {i : Fin 92} :
    charIndex c = some i ↔ c.toNat = i.val + 33 := by
  unfold charIndex
  split
  · rename_i h
    simp only [Option.some.injEq, Fin.ext_iff]
    omega
  · rename_i h
    have := i.isLt
    simp only [reduceCtorEq, false_iff]
    omega

theorem charIndex_legal {c : Char} (h : 33 ≤ c.toNat ∧ c.toNat < 125) :
    ∃ i, charIndex c = some i := by
  unfold charIndex; simp [h]

theorem charIndex_inj {c d : Char} {i : Fin 92} (hc : charIndex c = some i)
    (hd : charIndex d = some i) : c = d := by
  rw [charIndex_eq_some] at hc hd
  have : c.toNat = d.toNat := by omega
  apply Char.ext
  exact UInt32.toNat_inj.mp this

/-- Node reached from `n` by following the characters of a string. -/
def walk : TNode α → Str → Option (TNode α)
  | n, [] => some n
  | n, c :: cs =>
    match charIndex c with
    | none => none
    | some i =>
      match n.next i with
      | none => none
      | some m => walk m cs

/-- A stored string: its path exists and ends in a terminal node. -/
def mem (n : TNode α) (s : Str) : Bool :=
  match walk n s with
  | some m => m.terminal
  | none => false

/-- Payload at the end of a path. -/
def val (n : TNode α) (s : Str) : Option α :=
  match walk n s with
  | some m => m.data
  | none => none

@[simp] theorem mem_fresh (s : Str) : mem (TNode.fresh : TNode α) s = false := by
  cases s with
  | nil => rfl
  | cons c cs =>
    simp only [mem, walk, TNode.fresh, TNode.next_mk]
    cases charIndex c <;> rfl

theorem mem_nil (n : TNode α) : mem n [] = n.terminal := rfl

theorem mem_cons (n : TNode α) (c : Char) (cs : Str) :
    mem n (c :: cs) = match charIndex c with
      | none => false
      | some i => match n.next i with
        | none => false
        | some m => mem m cs := by
  simp only [mem, walk]
  cases charIndex c with
  | none => rfl
  | some i => cases h : n.next i <;> simp [h]

theorem val_cons (n : TNode α) (c : Char) (cs : Str) :
    val n (c :: cs) = match charIndex c with
      | none => none
      | some i => match n.next i with
        | none => none
        | some m => val m cs := by
  simp only [val, walk]
  cases charIndex c with
  | none => rfl
  | some i => cases h : n.next i <;> simp [h]

theorem mem_legal {n : TNode α} {s : Str} (h : mem n s = true) : Legal s := by
  induction s generalizing n with
  | nil => intro c hc; cases hc
  | cons c cs ih =>
    rw [mem_cons] at h
    cases hc : charIndex c with
    | none => simp [hc] at h
    | some i =>
      simp only [hc] at h
      cases hn : n.next i with
      | none => simp [hn] at h
      | some m =>
        simp only [hn] at h
        have := ih h
        rw [charIndex_eq_some] at hc
        intro d hd
        rcases List.mem_cons.mp hd with rfl | hd
        · have := i.isLt; omega
        · exact this d hd

/-- Semantics of insertion. -/
theorem addNode_spec (n : TNode α) (s : Str) (hs : Legal s) :
    ∃ n' , addNode n s = .ok (n', !mem n s) ∧
      (∀ s', mem n' s' = (mem n s' || s' == s)) ∧
      (∀ s', mem n s' = true → val n' s' = val n s') := by
  induction s generalizing n with
  | nil =>
    by_cases ht : n.terminal
    · refine ⟨n, ?_, ?_, ?_⟩
      · simp [addNode, mem_nil, ht]
      · intro s'
        cases s' with
        | nil => simp [mem_nil, ht]
        | cons => simp
      · intros; rfl
    · refine ⟨.mk true n.numSucc n.data n.next, ?_, ?_, ?_⟩
      · simp [addNode, mem_nil, ht]
      · intro s'
        cases s' with
        | nil => simp [mem_nil, TNode.terminal_mk]
        | cons c cs => simp [mem_cons, TNode.next_mk]
      · intro s' _
        cases s' with
        | nil => simp [val, walk, TNode.data_mk]
        | cons c cs => simp [val_cons, TNode.next_mk]
  | cons c cs ih =>
    have hcs : Legal cs := fun d hd => hs d (List.mem_cons_of_mem _ hd)
    obtain ⟨i, hi⟩ := charIndex_legal (hs c List.mem_cons_self)
    have hother : ∀ (d : Char) (j : Fin 92), charIndex d = some j → d ≠ c → j ≠ i := by
      intro d j hd hne heq
      subst heq
      exact hne (charIndex_inj hd hi)
    cases hn : n.next i with
    | none =>
      obtain ⟨m, h1, h2, h3⟩ := ih TNode.fresh hcs
      refine ⟨.mk n.terminal (n.numSucc + 1) n.data (setNext n.next i (some m)), ?_, ?_, ?_⟩
      · simp [addNode, hi, hn, h1, mem_cons]
      · intro s'
        cases s' with
        | nil => simp [mem_nil, TNode.terminal_mk]
        | cons d ds =>
          by_cases hd : d = c
          · subst hd
            simp [mem_cons, hi, hn, TNode.next_mk, setNext, h2]
          · cases hj : charIndex d with
            | none => simp [mem_cons, hj, hd]
            | some j =>
              have := hother d j hj hd
              simp [mem_cons, hj, TNode.next_mk, setNext, this, hd]
      · intro s' hm
        cases s' with
        | nil => simp [val, walk, TNode.data_mk]
        | cons d ds =>
          by_cases hd : d = c
          · subst hd
            simp [mem_cons, hi, hn] at hm
          · cases hj : charIndex d with
            | none => simp [val_cons, hj]
            | some j =>
              have := hother d j hj hd
              simp [val_cons, hj, TNode.next_mk, setNext, this]
    | some m =>
      obtain ⟨m', h1, h2, h3⟩ := ih m hcs
      refine ⟨.mk n.terminal n.numSucc n.data (setNext n.next i (some m')), ?_, ?_, ?_⟩
      · simp [addNode, hi, hn, h1, mem_cons]
      · intro s'
        cases s' with
        | nil => simp [mem_nil, TNode.terminal_mk]
        | cons d ds =>
          by_cases hd : d = c
          · subst hd
            simp [mem_cons, hi, hn, TNode.next_mk, setNext, h2]
          · cases hj : charIndex d with
            | none => simp [mem_cons, hj, hd]
            | some j =>
              have := hother d j hj hd
              simp [mem_cons, hj, TNode.next_mk, setNext, this, hd]
      · intro s' hm
        cases s' with
        | nil => simp [val, walk, TNode.data_mk]
        | cons d ds =>
          by_cases hd : d = c
          · subst hd
            simp only [mem_cons, hi, hn] at hm
            simp [val_cons, hi, hn, TNode.next_mk, setNext, h3 _ hm]
          · cases hj : charIndex d with
            | none => simp [val_cons, hj]
            | some j =>
              have := hother d j hj hd
              simp [val_cons, hj, TNode.next_mk, setNext, this]

theorem addNode_illegal (n : TNode α) (s : Str) (hs : ¬ Legal s) : addNode n s = .defect := by
  induction s generalizing n with
  | nil => exact absurd (fun c hc => by cases hc) hs
  | cons c cs ih =>
    cases hi : charIndex c with
    | none => simp [addNode, hi]
    | some i =>
      have hcs : ¬ Legal cs := by
        intro h
        apply hs
        intro d hd
        rcases List.mem_cons.mp hd with rfl | hd
        · rw [charIndex_eq_some] at hi
          have := i.isLt
          omega
        · exact h d hd
      cases hn : n.next i <;> simp [addNode, hi, hn, ih _ hcs]

/-- Semantics of writing the payload of a stored string. -/
theorem setDataNode_spec (n : TNode α) (s : Str) (a : α) (h : mem n s = true) :
    ∃ n', setDataNode n s a = .ok n' ∧ (∀ s', mem n' s' = mem n s') ∧
      val n' s = some a ∧ (∀ s', s' ≠ s → val n' s' = val n s') := by
  induction s generalizing n with
  | nil =>
    obtain ⟨t, k, d, f⟩ := n
    refine ⟨.mk t k (some a) f, rfl, ?_, rfl, ?_⟩
    · intro s'
      cases s' <;> simp [mem_nil, mem_cons, TNode.terminal_mk, TNode.next_mk]
    · intro s' hne
      cases s' with
      | nil => exact absurd rfl hne
      | cons => simp [val_cons, TNode.next_mk]
  | cons c cs ih =>
    obtain ⟨t, k, d, f⟩ := n
    simp only [mem_cons, TNode.next_mk] at h
    cases hi : charIndex c with
    | none => simp [hi] at h
    | some i =>
      simp only [hi] at h
      cases hn : f i with
      | none => simp [hn] at h
      | some m =>
        simp only [hn] at h
        obtain ⟨m', h1, h2, h3, h4⟩ := ih m h
        refine ⟨.mk t k d (setNext f i (some m')), ?_, ?_, ?_, ?_⟩
        · simp [setDataNode, hi, hn, h1]
        · intro s'
          cases s' with
          | nil => simp [mem_nil, TNode.terminal_mk]
          | cons e es =>
            simp only [mem_cons, TNode.next_mk, setNext]
            cases hj : charIndex e with
            | none => rfl
            | some j =>
              by_cases hji : j = i
              · subst hji; simp [hn, h2]
              · simp [hji]
        · simp [val_cons, hi, TNode.next_mk, setNext, h3]
        · intro s' hne
          cases s' with
          | nil => simp [val, walk, TNode.data_mk]
          | cons e es =>
            simp only [val_cons, TNode.next_mk, setNext]
            cases hj : charIndex e with
            | none => rfl
            | some j =>
              by_cases hji : j = i
              · subst hji
                have : e = c := charIndex_inj hj hi
                subst this
                have : es ≠ cs := fun h => hne (by rw [h])
                simp [hn, h4 _ this]
              · simp [hji]

/-- Members of what a removal leaves (`none`: node has been freed). -/
def memO (o : Option (TNode α)) (s : Str) : Bool :=
  match o with
  | some n => mem n s
  | none => false

def valO (o : Option (TNode α)) (s : Str) : Option α :=
  match o with
  | some n => val n s
  | none => none

/-- Number of successors. -/
def succCount (f : Fin 92 → Option (TNode α)) : Nat :=
  (List.finRange 92).countP (fun i => (f i).isSome)

/-- Node invariant: counters are exact and childless inner nodes are terminal. -/
inductive WF : Bool → TNode α → Prop where
  | mk {inner t k d f} (hk : k.toNat = succCount f)
      (hleaf : inner = true → succCount f = 0 → t = true)
      (hsub : ∀ i m, f i = some m → WF true m) : WF inner (TNode.mk t k d f)

theorem succCount_le (f : Fin 92 → Option (TNode α)) : succCount f ≤ 92 := by
  unfold succCount
  calc _ ≤ (List.finRange 92).length := List.countP_le_length
    _ = 92 := List.length_finRange

theorem succCount_zero {f : Fin 92 → Option (TNode α)} (h : succCount f = 0) (i : Fin 92) :
    f i = none := by
  unfold succCount at h
  rw [List.countP_eq_zero] at h
  have := h i (List.mem_finRange i)
  simpa using this

theorem succCount_pos {f : Fin 92 → Option (TNode α)} {i : Fin 92} {m} (h : f i = some m) :
    0 < succCount f := by
  rcases Nat.eq_zero_or_pos (succCount f) with h0 | h0
  · rw [succCount_zero h0 i] at h; cases h
  · exact h0

theorem countP_setNext (f : Fin 92 → Option (TNode α)) (i : Fin 92) (v : Option (TNode α))
    (l : List (Fin 92)) (hl : l.Nodup) :
    l.countP (fun j => (setNext f i v j).isSome) + (if i ∈ l ∧ (f i).isSome then 1 else 0)
      = l.countP (fun j => (f j).isSome) + (if i ∈ l ∧ v.isSome then 1 else 0) := by
  induction l with
  | nil => simp
  | cons a l ih =>
    have hl' := (List.nodup_cons.mp hl).2
    have hal := (List.nodup_cons.mp hl).1
    have ih := ih hl'
    simp only [List.countP_cons]
    by_cases hai : a = i
    · subst hai
      simp only [hal, false_and, if_false, List.mem_cons, true_or, true_and] at *
      simp only [setNext, if_true] at *
      cases hv : v.isSome <;> cases hf : (f a).isSome <;> simp_all <;> omega
    · have hmem : (i ∈ a :: l) ↔ i ∈ l := by
        simp [List.mem_cons, Ne.symm hai]
      simp only [hmem]
      have : (setNext f i v a) = f a := by simp [setNext, hai]
      rw [this]
      omega

theorem succCount_setNext_some_none (f : Fin 92 → Option (TNode α)) (i : Fin 92) (m : TNode α)
    (h : f i = none) : succCount (setNext f i (some m)) = succCount f + 1 := by
  have := countP_setNext f i (some m) _ (List.nodup_finRange 92)
  simp [h] at this
  simpa [succCount] using this

theorem succCount_setNext_some_some (f : Fin 92 → Option (TNode α)) (i : Fin 92) (m m' : TNode α)
    (h : f i = some m') : succCount (setNext f i (some m)) = succCount f := by
  have := countP_setNext f i (some m) _ (List.nodup_finRange 92)
  simp [h] at this
  simpa [succCount] using this

theorem succCount_setNext_none (f : Fin 92 → Option (TNode α)) (i : Fin 92) (m : TNode α)
    (h : f i = some m) : succCount (setNext f i none) + 1 = succCount f := by
  have := countP_setNext f i none _ (List.nodup_finRange 92)
  simp [h] at this
  simpa [succCount] using this

theorem WF.weaken {b : Bool} {n : TNode α} (h : WF b n) : WF false n := by
  cases h with
  | mk hk _ hsub => exact .mk hk (by simp) hsub

theorem WF.of_true {b : Bool} {n : TNode α} (h : WF true n) : WF b n := by
  cases h with
  | mk hk hl hsub => exact .mk hk (fun _ => hl rfl) hsub

theorem wf_fresh : WF false (TNode.fresh : TNode α) :=
  .mk (by simp [succCount]) (by simp) (by simp)

theorem addNode_wf (n : TNode α) (s : Str) (h : WF false n) {n' : TNode α} {b : Bool}
    (he : addNode n s = .ok (n', b)) : WF true n' := by
  induction s generalizing n n' b with
  | nil =>
    cases h with
    | mk hk hleaf hsub =>
      rename_i t k d f
      by_cases ht : t = true
      · simp only [addNode, TNode.terminal_mk, ht, if_true, Res.ok.injEq, Prod.mk.injEq] at he
        obtain ⟨rfl, rfl⟩ := he
        exact .mk hk (fun _ _ => rfl) hsub
      · simp [addNode, ht] at he
        obtain ⟨rfl, rfl⟩ := he
        exact .mk hk (fun _ _ => rfl) hsub
  | cons c cs ih =>
    cases h with
    | mk hk hleaf hsub =>
      rename_i t k d f
      simp only [addNode, TNode.terminal_mk, TNode.numSucc_mk, TNode.data_mk, TNode.next_mk] at he
      cases hi : charIndex c with
      | none => simp [hi] at he
      | some i =>
        simp only [hi] at he
        cases hn : f i with
        | none =>
          simp only [hn] at he
          rw [Res.bind_eq_ok] at he
          obtain ⟨⟨m, b'⟩, h1, h2⟩ := he
          simp only [Res.pure_eq, Res.ok.injEq, Prod.mk.injEq] at h2
          obtain ⟨rfl, rfl⟩ := h2
          have hm := ih _ wf_fresh h1
          have hc := succCount_setNext_some_none f i m hn
          have hle := succCount_le (setNext f i (some m))
          refine .mk ?_ ?_ ?_
          · rw [hc, UInt8.toNat_add, hk]
            have : (1 : UInt8).toNat = 1 := rfl
            rw [this]; omega
          · intro _ h0; omega
          · intro j m'
            simp only [setNext]
            split
            · intro h; cases h; exact hm
            · intro h; exact hsub _ _ h
        | some m0 =>
          simp only [hn] at he
          rw [Res.bind_eq_ok] at he
          obtain ⟨⟨m, b'⟩, h1, h2⟩ := he
          simp only [Res.pure_eq, Res.ok.injEq, Prod.mk.injEq] at h2
          obtain ⟨rfl, rfl⟩ := h2
          have hm := ih _ (hsub _ _ hn).weaken h1
          have hc := succCount_setNext_some_some f i m m0 hn
          refine .mk ?_ ?_ ?_
          · rw [hc, hk]
          · intro _ h0
            have := succCount_pos (f := setNext f i (some m)) (i := i) (m := m) (by simp [setNext])
            omega
          · intro j m'
            simp only [setNext]
            split
            · intro h; cases h; exact hm
            · intro h; exact hsub _ _ h

theorem setDataNode_wf (n : TNode α) (s : Str) (a : α) {b : Bool} (h : WF b n) {n' : TNode α}
    (he : setDataNode n s a = .ok n') : WF b n' := by
  induction s generalizing n n' b with
  | nil =>
    cases h with
    | mk hk hleaf hsub =>
      simp only [setDataNode, Res.ok.injEq] at he
      subst he
      exact .mk hk hleaf hsub
  | cons c cs ih =>
    cases h with
    | mk hk hleaf hsub =>
      rename_i t k d f
      simp only [setDataNode] at he
      cases hi : charIndex c with
      | none => simp [hi] at he
      | some i =>
        simp only [hi] at he
        cases hn : f i with
        | none => simp [hn] at he
        | some m =>
          simp only [hn] at he
          rw [Res.bind_eq_ok] at he
          obtain ⟨m', h1, h2⟩ := he
          simp only [Res.pure_eq, Res.ok.injEq] at h2
          subst h2
          have hm := ih _ (hsub _ _ hn) h1
          have hc := succCount_setNext_some_some f i m' m hn
          refine .mk (by rw [hc, hk]) (by rw [hc]; exact hleaf) ?_
          intro j x
          simp only [setNext]
          split
          · intro h; cases h; exact hm
          · intro h; exact hsub _ _ h

/-- A subtree without stored strings below an inner well-formed node does not exist. -/
theorem WF.exists_mem {n : TNode α} (h : WF true n) : ∃ s, mem n s = true := by
  generalize hb : true = b at h
  induction h with
  | mk hk hleaf hsub ih =>
    rename_i inner t k d f
    subst hb
    by_cases h0 : succCount f = 0
    · exact ⟨[], by simp [mem_nil, TNode.terminal_mk, hleaf rfl h0]⟩
    · have : ∃ i, (f i).isSome := by
        by_contra hno
        apply h0
        unfold succCount
        rw [List.countP_eq_zero]
        intro i _
        have := fun h => hno ⟨i, h⟩
        simpa using this
      obtain ⟨i, hi⟩ := this
      obtain ⟨m, hm⟩ := Option.isSome_iff_exists.mp hi
      obtain ⟨s, hs⟩ := ih i m hm rfl
      have : ∃ c, charIndex c = some i := by
        refine ⟨Char.ofNat (i.val + 33), ?_⟩
        rw [charIndex_eq_some]
        have : (i.val + 33).isValidChar := by
          left; have := i.isLt; omega
        simp [Char.toNat, Char.ofNat, this, Char.ofNatAux]
        have := i.isLt
        omega
      obtain ⟨c, hc⟩ := this
      exact ⟨c :: s, by simp [mem_cons, hc, TNode.next_mk, hm, hs]⟩

theorem prune_mk (inner dec t : Bool) (k d) (f : Fin 92 → Option (TNode α)) :
    prune inner dec (.mk t k d f) =
      if (k == 0 && inner && !t) = true then (dec, none) else (dec, some (.mk t k d f)) := rfl

/-- Semantics of removal, together with preservation of the invariant. -/
theorem removeNode_spec (n : TNode α) (inner : Bool) (s : Str) (h : WF inner n) :
    let r := removeNode n inner s
    r.1 = mem n s ∧
    (∀ s', memO r.2 s' = (mem n s' && s' != s)) ∧
    (∀ s', memO r.2 s' = true → valO r.2 s' = val n s') ∧
    (∀ n', r.2 = some n' → WF inner n') ∧
    (inner = false → r.2 ≠ none) := by
  induction s generalizing n inner with
  | nil =>
    cases h with
    | mk hk hleaf hsub =>
      rename_i t k d f
      simp only [removeNode, prune_mk]
      by_cases hc : (k == 0 && inner && !false) = true
      · simp only [hc, if_true]
        simp only [Bool.and_eq_true, beq_iff_eq, Bool.not_false, and_true] at hc
        have h0 : succCount f = 0 := by rw [← hk, hc.1]; rfl
        refine ⟨rfl, ?_, ?_, by simp, by simp [hc.2]⟩
        · intro s'
          cases s' with
          | nil => simp [memO]
          | cons c cs =>
            simp only [memO, mem_cons, TNode.next_mk]
            cases charIndex c with
            | none => simp
            | some i => simp [succCount_zero h0 i]
        · intro s' h; simp [memO] at h
      · rw [if_neg hc]
        simp only [Bool.and_eq_true, beq_iff_eq, not_and, Bool.not_eq_true, Bool.not_false, and_true] at hc
        refine ⟨rfl, ?_, ?_, ?_, by simp⟩
        · intro s'
          cases s' with
          | nil => simp [memO, mem_nil, TNode.terminal_mk]
          | cons c cs => simp [memO, mem_cons, TNode.next_mk]
        · intro s' _
          cases s' with
          | nil => simp [valO, val, walk, TNode.data_mk]
          | cons c cs => simp [valO, val_cons, TNode.next_mk]
        · intro n' hn'
          simp only [Option.some.injEq] at hn'
          subst hn'
          refine .mk hk ?_ hsub
          intro hi h0
          have : k = 0 := by
            apply UInt8.toNat_inj.mp
            rw [hk, h0]; rfl
          rw [hc this] at hi
          cases hi
  | cons c cs ih =>
    cases h with
    | mk hk hleaf hsub =>
      rename_i t k d f
      simp only [removeNode]
      cases hi : charIndex c with
      | none =>
        simp only
        refine ⟨by simp [mem_cons, hi], ?_, fun s' _ => rfl, ?_, by simp⟩
        · intro s'
          by_cases hs : s' = c :: cs
          · subst hs; simp [memO, mem_cons, hi]
          · simp [memO, hs]
        · intro n' hn'
          cases hn'
          exact .mk hk hleaf hsub
      | some i =>
        simp only
        have hother : ∀ (e : Char) (j : Fin 92), charIndex e = some j → e ≠ c → j ≠ i := by
          intro e j hd hne heq
          subst heq
          exact hne (charIndex_inj hd hi)
        cases hn : f i with
        | none =>
          simp only [prune_mk]
          have hnot : ¬ ((k == 0 && inner && !t) = true) := by
            simp only [Bool.and_eq_true, beq_iff_eq, Bool.not_eq_true', not_and, Bool.not_eq_false]
            intro ⟨hk0, hin⟩
            apply hleaf hin
            rw [← hk, hk0]; rfl
          rw [if_neg hnot]
          refine ⟨by simp [mem_cons, hi, TNode.next_mk, hn], ?_, fun s' _ => rfl, ?_, by simp⟩
          · intro s'
            by_cases hs : s' = c :: cs
            · subst hs; simp [memO, mem_cons, hi, TNode.next_mk, hn]
            · simp [memO, hs]
          · intro n' hn'
            cases hn'
            exact .mk hk hleaf hsub
        | some m =>
          have hm := ih m true (hsub i m hn)
          simp only
          rcases hr : removeNode m true cs with ⟨dec, o⟩
          rw [hr] at hm
          obtain ⟨h1, h2, h3, h4, -⟩ := hm
          have hmemdec : dec = mem (TNode.mk t k d f) (c :: cs) := by
            simp only at h1
            simp [mem_cons, hi, TNode.next_mk, hn, h1]
          cases o with
          | none =>
            simp only [prune_mk]
            have hcnt := succCount_setNext_none f i m hn
            have hle := succCount_le f
            have hk1 : (k - 1).toNat = succCount (setNext f i none) := by
              rw [UInt8.toNat_sub_of_le, hk]
              · have : (1 : UInt8).toNat = 1 := rfl
                rw [this]; omega
              · rw [UInt8.le_iff_toNat_le, hk]
                have : (1 : UInt8).toNat = 1 := rfl
                omega
            have hmem' : ∀ s', mem (TNode.mk t (k-1) d (setNext f i none)) s'
                = (mem (TNode.mk t k d f) s' && s' != c :: cs) := by
              intro s'
              cases s' with
              | nil => simp [mem_nil, TNode.terminal_mk]
              | cons e es =>
                by_cases he : e = c
                · subst he
                  have := h2 es
                  simp only [memO] at this
                  simp [mem_cons, hi, TNode.next_mk, setNext, hn]
                  simpa using this
                · cases hj : charIndex e with
                  | none => simp [mem_cons, hj]
                  | some j =>
                    have := hother e j hj he
                    simp [mem_cons, hj, TNode.next_mk, setNext, this, he]
            by_cases hfree : ((k - 1 == 0) && inner && !t) = true
            · rw [if_pos hfree]
              simp only [Bool.and_eq_true, beq_iff_eq, Bool.not_eq_true'] at hfree
              obtain ⟨⟨hk0, hin⟩, ht⟩ := hfree
              have h0 : succCount (setNext f i none) = 0 := by rw [← hk1, hk0]; rfl
              refine ⟨hmemdec, ?_, ?_, by simp, by simp [hin]⟩
              · intro s'
                rw [← hmem' s']
                cases s' with
                | nil => simp [memO, mem_nil, TNode.terminal_mk, ht]
                | cons e es =>
                  simp only [memO, mem_cons, TNode.next_mk]
                  cases hj : charIndex e with
                  | none => rfl
                  | some j => simp [succCount_zero h0 j]
              · intro s' h; simp [memO] at h
            · rw [if_neg hfree]
              refine ⟨hmemdec, ?_, ?_, ?_, by simp⟩
              · intro s'; exact hmem' s'
              · intro s' hs'
                simp only [memO] at hs'
                simp only [valO]
                cases s' with
                | nil => simp [val, walk, TNode.data_mk]
                | cons e es =>
                  by_cases he : e = c
                  · subst he
                    simp [mem_cons, hi, TNode.next_mk, setNext] at hs'
                  · cases hj : charIndex e with
                    | none => simp [val_cons, hj]
                    | some j =>
                      have := hother e j hj he
                      simp [val_cons, hj, TNode.next_mk, setNext, this]
              · intro n' hn'
                cases hn'
                refine .mk hk1 ?_ ?_
                · intro hin h0
                  have hk0 : k - 1 = 0 := by
                    apply UInt8.toNat_inj.mp
                    rw [hk1, h0]; rfl
                  simpa [hk0, hin] using hfree
                · intro j x
                  simp only [setNext]
                  split
                  · intro h; cases h
                  · intro h; exact hsub _ _ h
          | some m' =>
            simp only [prune_mk]
            have hcnt := succCount_setNext_some_some f i m' m hn
            have hpos := succCount_pos (f := setNext f i (some m')) (i := i) (m := m')
              (by simp [setNext])
            have hk0 : ¬ k = 0 := by
              intro h
              rw [h] at hk
              have : (0 : UInt8).toNat = 0 := rfl
              omega
            rw [if_neg (by simp [hk0])]
            refine ⟨hmemdec, ?_, ?_, ?_, by simp⟩
            · intro s'
              cases s' with
              | nil => simp [memO, mem_nil, TNode.terminal_mk]
              | cons e es =>
                by_cases he : e = c
                · subst he
                  have := h2 es
                  simp only [memO] at this
                  simp [memO, mem_cons, hi, TNode.next_mk, setNext, hn, this, bne]
                · cases hj : charIndex e with
                  | none => simp [memO, mem_cons, hj]
                  | some j =>
                    have := hother e j hj he
                    simp [memO, mem_cons, hj, TNode.next_mk, setNext, this, he]
            · intro s' hs'
              simp only [memO] at hs'
              simp only [valO]
              cases s' with
              | nil => simp [val, walk, TNode.data_mk]
              | cons e es =>
                by_cases he : e = c
                · subst he
                  simp only [mem_cons, hi, TNode.next_mk, setNext, if_true] at hs'
                  have := h3 es hs'
                  simp only [valO] at this
                  simp [val_cons, hi, TNode.next_mk, setNext, hn, this]
                · cases hj : charIndex e with
                  | none => simp [val_cons, hj]
                  | some j =>
                    have := hother e j hj he
                    simp [val_cons, hj, TNode.next_mk, setNext, this]
            · intro n' hn'
              cases hn'
              refine .mk (by rw [hcnt, hk]) (by rw [hcnt]; exact hleaf) ?_
              intro j x
              simp only [setNext]
              split
              · intro h; cases h; exact h4 _ rfl
              · intro h; exact hsub _ _ h

end Trie
end Verif

namespace Verif
namespace Trie
variable {α : Type}

theorem setNext_self (f : Fin 92 → Option (TNode α)) (i : Fin 92) (v) (h : f i = v) :
    setNext f i v = f := by
  funext j
  simp only [setNext]
  split
  · rename_i hj; subst hj; exact h.symm
  · rfl

theorem addNode_dup (n : TNode α) (s : Str) (h : mem n s = true) :
    addNode n s = .ok (n, false) := by
  induction s generalizing n with
  | nil => rw [mem_nil] at h; simp [addNode, h]
  | cons c cs ih =>
    obtain ⟨t, k, d, f⟩ := n
    simp only [mem_cons, TNode.next_mk] at h
    cases hi : charIndex c with
    | none => simp [hi] at h
    | some i =>
      simp only [hi] at h
      cases hn : f i with
      | none => simp [hn] at h
      | some m =>
        simp only [hn] at h
        simp [addNode, hi, hn, ih m h, setNext_self f i (some m) hn]

/-- What the loop of `trie_longest_prefix` computes. -/
theorem longestLoop_spec (n : TNode α) (s : Str) (i res : Nat) (dat : Option α) :
    ∃ k, k ≤ s.length ∧
      longestLoop n s i res dat = (if k = 0 then (res, dat) else (i + k, val n (s.take k))) ∧
      (k ≠ 0 → mem n (s.take k) = true) ∧
      (∀ j, k < j → j ≤ s.length → mem n (s.take j) = false) := by
  induction s generalizing n i res dat with
  | nil => exact ⟨0, by simp, by simp [longestLoop], by simp, by simp; omega⟩
  | cons c cs ih =>
    have hstop : ∀ (hno : ∀ j, 0 < j → mem n ((c :: cs).take j) = false)
        (hl : longestLoop n (c :: cs) i res dat = (res, dat)),
        ∃ k, k ≤ (c :: cs).length ∧
          longestLoop n (c :: cs) i res dat
            = (if k = 0 then (res, dat) else (i + k, val n ((c :: cs).take k))) ∧
          (k ≠ 0 → mem n ((c :: cs).take k) = true) ∧
          (∀ j, k < j → j ≤ (c :: cs).length → mem n ((c :: cs).take j) = false) :=
      fun hno hl => ⟨0, by simp, by simp [hl], by simp, fun j h1 _ => hno j h1⟩
    cases hi : charIndex c with
    | none =>
      refine hstop ?_ (by simp [longestLoop, hi])
      intro j hj
      obtain ⟨j, rfl⟩ := Nat.exists_eq_succ_of_ne_zero (Nat.pos_iff_ne_zero.mp hj)
      simp [mem_cons, hi]
    | some x =>
      cases hn : n.next x with
      | none =>
        refine hstop ?_ (by simp [longestLoop, hi, hn])
        intro j hj
        obtain ⟨j, rfl⟩ := Nat.exists_eq_succ_of_ne_zero (Nat.pos_iff_ne_zero.mp hj)
        simp [mem_cons, hi, hn]
      | some m =>
        have hstep : ∀ j, mem n ((c :: cs).take (j + 1)) = mem m (cs.take j) := by
          intro j; simp [mem_cons, hi, hn]
        have hstepv : ∀ j, val n ((c :: cs).take (j + 1)) = val m (cs.take j) := by
          intro j; simp [val_cons, hi, hn]
        by_cases ht : m.terminal
        · obtain ⟨k, hk, h1, h2, h3⟩ := ih m (i + 1) (i + 1) m.data
          refine ⟨k + 1, by simp; omega, ?_, ?_, ?_⟩
          · rw [hstepv, if_neg (Nat.succ_ne_zero k)]
            simp only [longestLoop, hi, hn, ht, if_true, h1]
            by_cases hk0 : k = 0
            · subst hk0
              rfl
            · rw [if_neg hk0, Nat.add_right_comm, Nat.add_assoc]
          · intro _
            rw [hstep]
            by_cases hk0 : k = 0
            · subst hk0; simpa [mem_nil] using ht
            · exact h2 hk0
          · intro j hj hj'
            obtain ⟨j, rfl⟩ : ∃ j', j = j' + 1 := ⟨j - 1, by omega⟩
            rw [hstep]
            exact h3 j (by omega) (by simpa using hj')
        · obtain ⟨k, hk, h1, h2, h3⟩ := ih m (i + 1) res dat
          by_cases hk0 : k = 0
          · subst hk0
            refine ⟨0, by simp, ?_, by simp, ?_⟩
            · simp [longestLoop, hi, hn, ht, h1]
            · intro j hj hj'
              obtain ⟨j, rfl⟩ : ∃ j', j = j' + 1 := ⟨j - 1, by omega⟩
              rw [hstep]
              by_cases hj0 : j = 0
              · subst hj0; simpa [mem_nil] using ht
              · exact h3 j (by omega) (by simpa using hj')
          · refine ⟨k + 1, by simp; omega, ?_, ?_, ?_⟩
            · rw [hstepv, if_neg (Nat.succ_ne_zero k)]
              simp only [longestLoop, hi, hn, ht, h1]
              rw [if_neg hk0, Nat.add_right_comm, Nat.add_assoc]
              rfl
            · intro _; rw [hstep]; exact h2 hk0
            · intro j hj hj'
              obtain ⟨j, rfl⟩ : ∃ j', j = j' + 1 := ⟨j - 1, by omega⟩
              rw [hstep]
              exact h3 j (by omega) (by simpa using hj')

theorem longestPrefix_spec (t : Trie α) (s : Str) :
    (t.longestPrefix s).1 ≤ s.length ∧
    ((t.longestPrefix s).1 ≠ 0 → mem t.root (s.take (t.longestPrefix s).1) = true ∧
        (t.longestPrefix s).2 = val t.root (s.take (t.longestPrefix s).1)) ∧
    (∀ j, (t.longestPrefix s).1 < j → j ≤ s.length → mem t.root (s.take j) = false) := by
  obtain ⟨k, hk, h1, h2, h3⟩ := longestLoop_spec t.root s 0 0 t.root.data
  have : t.longestPrefix s = if k = 0 then (0, t.root.data) else (0 + k, val t.root (s.take k)) := h1
  by_cases hk0 : k = 0
  · subst hk0
    simp only [if_true] at this
    rw [this]
    exact ⟨by simp, by simp, h3⟩
  · simp only [hk0, if_false, Nat.zero_add] at this
    rw [this]
    exact ⟨hk, fun _ => ⟨h2 hk0, rfl⟩, h3⟩

theorem contains_spec (t : Trie α) (s : Str) :
    (t.contains s).1 = mem t.root s ∧
    (mem t.root s = true → (t.contains s).2 = val t.root s) := by
  cases s with
  | nil => exact ⟨rfl, fun _ => rfl⟩
  | cons c cs =>
    obtain ⟨h1, h2, h3⟩ := longestPrefix_spec t (c :: cs)
    simp only [contains]
    by_cases hl : (t.longestPrefix (c :: cs)).1 = (c :: cs).length
    · have hne : (t.longestPrefix (c :: cs)).1 ≠ 0 := by rw [hl]; simp
      obtain ⟨h4, h5⟩ := h2 hne
      rw [hl, List.take_length] at h4
      rw [hl, List.take_length] at h5
      exact ⟨by simp [hl, h4], fun _ => h5⟩
    · have := h3 (c :: cs).length (by omega) (Nat.le_refl _)
      rw [List.take_length] at this
      refine ⟨?_, by simp [this]⟩
      rw [this]
      simpa using hl

end Trie
end Verif
