import Verif.Model.ParserHeap
import Verif.Lemmas.NodeHeap
import Mathlib.Data.List.Perm.Basic
import Mathlib.Data.List.Perm.Subperm

/-!
# Simulation of the parser with nodes in memory
-/

namespace Verif
open OwnershipSpec
variable {V : Type}

/-! ## Numbers of calls -/

mutual
theorem calls_le {g : Nat → Option (Cell V)} : ∀ {t : Tree V} {p : Nat} {S : List Nat},
    Holds g t p S → calls t + 1 ≤ 3 * S.length
  | .const v i, p, S, ⟨_, h⟩ => by simp [h, calls]
  | .var n x i, p, S, ⟨_, h⟩ => by simp [h, calls]
  | .op o cs i, p, S, ⟨ps, T, _, h2, h3⟩ => by
    have := callsAll_le h2
    simp only [calls, h3, List.length_cons]
    omega
theorem callsAll_le {g : Nat → Option (Cell V)} : ∀ {ts : List (Tree V)} {ps S : List Nat},
    HoldsAll g ts ps S → callsAll ts ≤ 3 * S.length + 1
  | [], ps, S, ⟨_, h⟩ => by simp [h, callsAll]
  | c :: cs, ps, S, ⟨p, qs, S1, S2, _, h2, h3, h4⟩ => by
    have h3 := calls_le h3
    have h4 := callsAll_le h4
    simp only [callsAll, h2, List.length_append]
    omega
end

theorem Mem.live_length {m : Mem V} {S : List Nat} (h : S.Nodup) (hl : ∀ a ∈ S, m.get a ≠ none) :
    S.length ≤ m.cells.length := by
  have : S ⊆ m.cells.map (·.1) := by
    intro a ha
    have := hl a ha
    simp only [Mem.get, ne_eq, Option.map_eq_none_iff, List.find?_eq_none, not_forall] at this
    obtain ⟨c, hc, e⟩ := this
    simp only [decide_eq_true_eq, not_not] at e
    exact List.mem_map.mpr ⟨c, hc, e⟩
  have := (List.Nodup.subperm h this).length_le
  simpa using this

theorem Mem.enough_le {m : Mem V} {t : Tree V} {p : Nat} {S : List Nat} (h : Holds m.get t p S)
    (hS : S.Nodup) : calls t ≤ m.enough := by
  have h1 := calls_le h
  have h2 := Mem.live_length hS h.live
  unfold Mem.enough
  omega

/-! ## The stack of nodes -/

/-- The pointers `ps` hold the trees `ts`, in nodes of their own that were not allocated in
`m0`; nothing else has changed. -/
def Stacked (m0 m : Mem V) (ts : List (Tree V)) (ps : List Nat) : Prop :=
  ∃ S, HoldsAll m.get ts ps S ∧ S.Nodup ∧ (∀ a ∈ S, m0.get a = none) ∧
    (∀ a, a ∉ S → m.get a = m0.get a) ∧ m.vars = m0.vars

theorem OwnershipSpec.HoldsAll.reverse {g : Nat → Option (Cell V)} : ∀ {ts : List (Tree V)} {ps S : List Nat},
    HoldsAll g ts ps S → ∃ T, HoldsAll g ts.reverse ps.reverse T ∧ T.Perm S
  | [], ps, S, h => ⟨[], by obtain ⟨rfl, rfl⟩ := h; exact ⟨rfl, rfl⟩, by rw [h.2]⟩
  | c :: cs, ps, S, ⟨p, qs, S1, S2, h1, h2, h3, h4⟩ => by
    obtain ⟨T, e1, e2⟩ := HoldsAll.reverse h4
    refine ⟨T ++ S1, ?_, ?_⟩
    · rw [h1, List.reverse_cons, List.reverse_cons]
      have : HoldsAll g [c] [p] S1 := ⟨p, [], S1, [], rfl, by simp, h3, rfl, rfl⟩
      exact e1.append this
    · rw [h2]
      exact List.perm_append_comm.trans (List.Perm.append_left S1 e2)

theorem popChildren_ok {arity : Nat} : ∀ {k : Nat} {m : Mem V} {ps : List Nat} {r : Nat} {o : Op}
    {cs : List (Option Nat)} {i : Nat},
    m.get r = some (.op o (List.replicate k none ++ cs) i) → k ≤ ps.length →
    ∃ m', popChildren arity k m ps r = .ok (true, m', ps.drop k) ∧
      (∀ a, m'.get a = if a = r then some (.op o ((ps.take k).reverse.map some ++ cs) i) else m.get a) ∧
      m'.vars = m.vars := by
  intro k
  induction k with
  | zero =>
    intro m ps r o cs i h _
    refine ⟨m, by simp [popChildren], fun a => ?_, rfl⟩
    by_cases ha : a = r
    · simpa [ha] using h
    · simp [ha]
  | succ k ih =>
    intro m ps r o cs i h hk
    cases ps with
    | nil => simp at hk
    | cons p ps =>
      obtain ⟨m1, e1, e2, e3⟩ := Mem.setChild_ok (k := k) h (by simp; omega) (some p)
      have hset : (List.replicate (k + 1) none ++ cs).set k (some p) =
          List.replicate k none ++ some p :: cs := by
        rw [List.replicate_succ', List.append_assoc, List.set_append_right _ _ (by simp)]
        simp
      rw [hset] at e2
      obtain ⟨m2, f1, f2, f3⟩ := ih (m := m1) (ps := ps) (cs := some p :: cs) (by rw [e2, if_pos rfl])
        (by simpa using hk)
      refine ⟨m2, by simp [popChildren, e1, f1], fun a => ?_, f3.trans e3⟩
      rw [f2]
      by_cases ha : a = r
      · simp [ha]
      · simp [ha, e2]

theorem popChildren_under {arity : Nat} : ∀ {ps : List Nat} {k : Nat} {m : Mem V} {r : Nat} {o : Op}
    {cs : List (Option Nat)} {i : Nat},
    m.get r = some (.op o (List.replicate k none ++ cs) i) → ps.length < k →
    ∃ m', popChildren arity k m ps r =
        (do let m2 ← freeTree (m'.enough + arity + 3) m' (some r); pure (false, m2, [])) ∧
      (∀ a, m'.get a = if a = r then
        some (.op o (List.replicate (k - ps.length) none ++ (ps.reverse.map some ++ cs)) i) else m.get a) ∧
      m'.vars = m.vars := by
  intro ps
  induction ps with
  | nil =>
    intro k m r o cs i h hk
    cases k with
    | zero => simp at hk
    | succ k =>
      refine ⟨m, by simp [popChildren], fun a => ?_, rfl⟩
      by_cases ha : a = r
      · simpa [ha] using h
      · simp [ha]
  | cons p ps ih =>
    intro k m r o cs i h hk
    cases k with
    | zero => simp at hk
    | succ k =>
      obtain ⟨m1, e1, e2, e3⟩ := Mem.setChild_ok (k := k) h (by simp; omega) (some p)
      have hset : (List.replicate (k + 1) none ++ cs).set k (some p) =
          List.replicate k none ++ some p :: cs := by
        rw [List.replicate_succ', List.append_assoc, List.set_append_right _ _ (by simp)]
        simp
      rw [hset] at e2
      obtain ⟨m2, f1, f2, f3⟩ := ih (m := m1) (k := k) (cs := some p :: cs) (by rw [e2, if_pos rfl])
        (by simpa using hk)
      refine ⟨m2, by simp [popChildren, e1, f1], fun a => ?_, f3.trans e3⟩
      rw [f2]
      by_cases ha : a = r
      · simp [ha]
      · simp [ha, e2]

/-- NULL among the children of a node is skipped. -/
theorem freeChildren_null {m : Mem V} {r : Nat} {o : Op} {cs : List (Option Nat)} {i f : Nat}
    (hf : 1 ≤ f) : ∀ {j l : Nat} {pre : List (Option Nat)}, pre.length = l →
    m.get r = some (.op o (pre ++ (List.replicate j none ++ cs)) i) →
    freeChildren (f + j) m r l = freeChildren f m r (l + j) := by
  intro j
  induction j with
  | zero => intro l pre _ _; rfl
  | succ j ih =>
    intro l pre hl h
    have h' : m.get r = some (.op o ((pre ++ [none]) ++ (List.replicate j none ++ cs)) i) := by
      simpa [List.replicate_succ] using h
    have hget : (pre ++ (List.replicate (j + 1) none ++ cs))[l]? = some none := by
      rw [List.getElem?_append_right (by omega), hl]
      simp [List.replicate_succ]
    have h0 : freeTree (f + j) m none = .ok m := by
      obtain ⟨k, hk⟩ : ∃ k, f + j = k + 1 := ⟨f + j - 1, by omega⟩
      rw [hk, freeTree]
    rw [show f + (j + 1) = (f + j) + 1 from rfl, freeChildren, h]
    simp only [hget, h0, Out.bind_ok]
    rw [ih (l := l + 1) (pre := pre ++ [none]) (by simp [hl]) h']
    congr 1
    omega

theorem freeTree_null {m : Mem V} {r : Nat} {o : Op} {i j : Nat} {ts : List (Tree V)} {ps S : List Nat}
    (h : m.get r = some (.op o (List.replicate j none ++ ps.map some) i)) (hts : HoldsAll m.get ts ps S)
    (hS : S.Nodup) (hr : r ∉ S) {fuel : Nat} (hf : 3 * S.length + j + 3 ≤ fuel) :
    ∃ m', freeTree fuel m (some r) = .ok m' ∧
      (∀ a, m'.get a = if a = r ∨ a ∈ S then none else m.get a) ∧ m'.vars = m.vars := by
  obtain ⟨n, rfl⟩ : ∃ n, fuel = (n + j) + 1 := ⟨fuel - j - 1, by omega⟩
  have hc := callsAll_le hts
  obtain ⟨m1, e1, e2, e3⟩ := freeChildren_spec (pre := List.replicate j none) (n := n) hts hS (p := r) h hr
    (by omega)
  have h0 := freeChildren_null (m := m) (r := r) (f := n) (by omega) (j := j) (l := 0) (pre := []) rfl
    (by simpa using h)
  rw [Nat.zero_add, ← List.length_replicate (n := j) (a := (none : Option Nat)), List.length_replicate] at h0
  obtain ⟨m2, f1, f2, f3⟩ := Mem.free_ok ((e2 r).trans (by rw [if_neg hr]; exact h))
  refine ⟨m2, ?_, fun a => ?_, f3.trans e3⟩
  · rw [freeTree, h]
    simp only [List.length_replicate] at e1
    simp [h0, e1, f1]
  · rw [f2, e2]
    by_cases ha : a = r <;> simp [ha]

/-! ## `op_pop_and_insert` and the loops -/

/-- What failing means for the memory. -/
def PopFail (m0 : Mem V) (e : PopErr) (x : HPop × Mem V × List Nat) : Prop :=
  match e with
  | .wrongArity k => x.1 = .wrongArity k ∧ ∃ ts, Stacked m0 x.2.1 ts x.2.2
  | .underflow => x.1 = .underflow ∧ x.2.2 = [] ∧ Stacked m0 x.2.1 [] []
  | .ub => False

/-- The function in memory does what the one on values does. -/
def PopSim {α β : Type} (m0 : Mem V) (P : α → β → Prop) :
    Except PopErr α → Out (Except (HPop × Mem V × List Nat) β) → Prop
  | .ok a, r => ∃ b, r = .ok (.ok b) ∧ P a b
  | .error .ub, r => r = .ub
  | .error e, r => ∃ x, r = .ok (.error x) ∧ PopFail m0 e x

theorem popInsert_sim (M : Malloc V) {m0 m : Mem V} {ts : List (Tree V)} {ps : List Nat} (o : Op) (d : OpData)
    (h : Stacked m0 m ts ps) : PopSim m0 (fun ts' r => Stacked m0 r.1 ts' r.2) (popInsert o d ts)
      (popInsertH M o d m ps) := by
  unfold popInsert popInsertH
  split
  · exact ⟨_, rfl, rfl, ts, h⟩
  · split
    · rfl
    · obtain ⟨S, h1, h2, h3, h4, h5⟩ := h
      have hlen := h1.length
      let a := m.alloc M (.op o (List.replicate d.arity none) d.token)
      have ha : a = m.alloc M (.op o (List.replicate d.arity none) d.token) := rfl
      have hg := Mem.get_alloc M m (.op o (List.replicate d.arity none) d.token)
      have hfr := Mem.alloc_fresh M m (.op o (List.replicate d.arity none) d.token)
      rw [← ha] at hg hfr ⊢
      have hav : a.2.vars = m.vars := rfl
      have haS : a.1 ∉ S := fun hm => h1.live _ hm hfr
      have h0 : m0.get a.1 = none := by rw [← h4 _ haS, hfr]
      split
      · next hl =>
        obtain ⟨mX, e1, e2, e3⟩ := popChildren_under (arity := d.arity) (ps := ps) (k := d.arity) (m := a.2)
          (r := a.1) (o := o) (cs := []) (i := d.token) (by rw [hg, if_pos rfl]; simp) (by omega)
        obtain ⟨T, t1, t2⟩ := h1.reverse
        have haT : a.1 ∉ T := fun h => haS (t2.mem_iff.mp h)
        have t1' : HoldsAll mX.get ts.reverse ps.reverse T := t1.congr fun b hb => by
          have hb' : b ≠ a.1 := fun e => haT (e ▸ hb)
          rw [e2, if_neg hb', hg, if_neg hb']
        have hTn : T.Nodup := t2.nodup_iff.mpr h2
        have hlive := Mem.live_length hTn t1'.live
        obtain ⟨m2, f1, f2, f3⟩ := freeTree_null (m := mX) (r := a.1) (j := d.arity - ps.length) (o := o)
          (i := d.token) (by rw [e2, if_pos rfl]; simp) t1' hTn haT
          (fuel := mX.enough + d.arity + 3) (by unfold Mem.enough; omega)
        refine ⟨(.underflow, m2, []), ?_, rfl, rfl, [], ⟨rfl, rfl⟩, by simp, by simp, fun b _ => ?_, ?_⟩
        · simp [e1, f1]
        · rw [f2]
          by_cases hb : b = a.1
          · simp [hb, h0]
          · by_cases hb2 : b ∈ T
            · simp [hb2, h3 b (t2.mem_iff.mp hb2)]
            · simp only [hb, hb2, or_self, if_false, e2, hg]
              exact h4 b fun h => hb2 (t2.mem_iff.mpr h)
        · rw [f3, e3, hav, h5]
      · next hl =>
        obtain ⟨m', e1, e2, e3⟩ := popChildren_ok (arity := d.arity) (ps := ps) (k := d.arity) (m := a.2)
          (r := a.1) (o := o) (cs := []) (i := d.token) (by rw [hg, if_pos rfl]; simp) (by omega)
        have hsplit := h1
        rw [← List.take_append_drop d.arity ts] at hsplit
        obtain ⟨p1, p2, S1, S2, q1, q2, q3, q4⟩ := hsplit.split
        have hp1 : p1.length = d.arity := by rw [q3.length]; simp; omega
        have ht : ps.take d.arity = p1 := by rw [q1]; simp [hp1]
        have hd : ps.drop d.arity = p2 := by rw [q1]; simp [hp1]
        obtain ⟨T, t1, t2⟩ := q3.reverse
        have hsame : ∀ b ∈ S, m'.get b = m.get b := by
          intro b hb
          have hb' : b ≠ a.1 := fun e => haS (e ▸ hb)
          rw [e2, if_neg hb', hg, if_neg hb']
        rw [q2] at h2 hsame h3 h4 haS
        simp only [List.mem_append, not_or] at hsame h3 h4 haS
        have t1' : HoldsAll m'.get (ts.take d.arity).reverse p1.reverse T := t1.congr fun b hb =>
          hsame b (.inl (t2.mem_iff.mp hb))
        have q4' := q4.congr fun b hb => hsame b (.inr hb)
        refine ⟨(m', a.1 :: p2), ?_, (a.1 :: T) ++ S2, ?_, ?_, ?_, ?_, ?_⟩
        · simp [e1, hd]
        · refine ⟨a.1, p2, a.1 :: T, S2, rfl, rfl, ⟨p1.reverse, T, ?_, t1', rfl⟩, q4'⟩
          rw [e2, if_pos rfl, ht, List.append_nil]
        · rw [List.cons_append, List.nodup_cons]
          refine ⟨?_, (List.Perm.nodup_iff (List.Perm.append_right S2 t2)).mpr h2⟩
          simp only [List.mem_append, t2.mem_iff]
          exact fun h => h.elim haS.1 haS.2
        · intro b hb
          simp only [List.cons_append, List.mem_cons, List.mem_append, t2.mem_iff] at hb
          rcases hb with rfl | hb
          · exact h0
          · exact h3 b hb
        · intro b hb
          simp only [List.cons_append, List.mem_cons, List.mem_append, t2.mem_iff, not_or] at hb
          rw [e2, if_neg hb.1, hg, if_neg hb.1]
          exact h4 b hb.2
        · rw [e3, hav, h5]

theorem PopSim.ub_or {α β : Type} {m0 : Mem V} {P : α → β → Prop} {e : PopErr}
    {r : Out (Except (HPop × Mem V × List Nat) β)} (h : PopSim m0 P (.error e) r) :
    (e = .ub ∧ r = .ub) ∨ ∃ x, r = .ok (.error x) ∧ PopFail m0 e x := by
  cases e with
  | ub => exact .inl ⟨rfl, h⟩
  | wrongArity k => exact .inr h
  | underflow => exact .inr h

theorem PopSim.of_fail {α β : Type} {m0 : Mem V} {P : α → β → Prop} {e : PopErr} {x : HPop × Mem V × List Nat}
    (h : PopFail m0 e x) : PopSim m0 P (.error e : Except PopErr α)
      (.ok (.error x) : Out (Except (HPop × Mem V × List Nat) β)) := by
  cases e with
  | ub => exact h.elim
  | wrongArity k => exact ⟨x, rfl, h⟩
  | underflow => exact ⟨x, rfl, h⟩

theorem popWhile_sim (M : Malloc V) {m0 : Mem V} (p : Op → Bool) : ∀ {ops : List OpData} {m : Mem V}
    {ts : List (Tree V)} {ps : List Nat}, Stacked m0 m ts ps →
    PopSim m0 (fun a r => Stacked m0 r.1 a.1 r.2.1 ∧ r.2.2 = a.2) (popWhile p ts ops)
      (popWhileH M p m ps ops) := by
  intro ops
  induction ops with
  | nil => intro m ts ps h; exact ⟨_, rfl, h, rfl⟩
  | cons d ds ih =>
    intro m ts ps h
    unfold popWhile popWhileH
    cases ho : d.op with
    | none => exact ⟨_, rfl, h, rfl⟩
    | some o =>
      simp only
      split
      · have hs := popInsert_sim M o d h
        cases hp : popInsert o d ts with
        | error e =>
          rw [hp] at hs
          rcases hs.ub_or with ⟨rfl, hr⟩ | ⟨x, hr, hx⟩
          · rw [hr]; rfl
          · rw [hr]; exact PopSim.of_fail hx
        | ok ts' =>
          rw [hp] at hs
          obtain ⟨b, hr, hb⟩ := hs
          rw [hr]
          exact ih hb
      · exact ⟨_, rfl, h, rfl⟩

theorem pushOperator_sim (M : Malloc V) {m0 m : Mem V} {ts : List (Tree V)} {ps : List Nat} (o : Op) (i : Nat)
    (ops : List OpData) (h : Stacked m0 m ts ps) :
    PopSim m0 (fun a r => Stacked m0 r.1 a.1 r.2.1 ∧ r.2.2 = a.2) (pushOperator o i ts ops)
      (pushOperatorH M o i m ps ops) := by
  unfold pushOperator pushOperatorH
  split
  · have hs := popWhile_sim M (pops o) (ops := ops) h
    cases hp : popWhile (pops o) ts ops with
    | error e =>
      rw [hp] at hs
      rcases hs.ub_or with ⟨rfl, hr⟩ | ⟨x, hr, hx⟩
      · rw [hr]; rfl
      · rw [hr]; exact PopSim.of_fail hx
    | ok a =>
      rw [hp] at hs
      obtain ⟨b, hr, hb⟩ := hs
      rw [hr]
      exact ⟨_, rfl, hb.1, by rw [hb.2]⟩
  · exact ⟨_, rfl, h, rfl⟩

/-! ## Steps -/

/-- The states agree. -/
structure StSim (m0 : Mem V) (st : PState V) (hs : HState V) : Prop where
  nodes : Stacked m0 hs.mem st.nodes hs.nodes
  ops : hs.ops = st.ops
  infix' : hs.awaitInfix = st.awaitInfix
  params : hs.awaitParams = st.awaitParams

/-- Leaving early: the result, and what is on the stack. -/
def ExitSim (m0 : Mem V) : PRes V → HExit V → Prop
  | .err e k, x => x.result = some (e, k) ∧ ∃ ts, Stacked m0 x.mem ts x.nodes
  | .okUninit, x => x.result = none ∧ x.nodes = [] ∧ Stacked m0 x.mem [] []
  | _, _ => False

/-- The step in memory does what the one on values does. -/
def StepSim (m0 : Mem V) : Except (PRes V) (PState V) → Out (Except (HExit V) (HState V)) → Prop
  | .ok st, r => ∃ hs, r = .ok (.ok hs) ∧ StSim m0 st hs
  | .error e, r => (e = .ub ∧ r = .ub) ∨ ∃ x, r = .ok (.error x) ∧ ExitSim m0 e x

theorem PopFail.exit {m0 : Mem V} {e : PopErr} {x : HPop × Mem V × List Nat} (h : PopFail m0 e x) :
    ExitSim m0 e.exit (HPop.exit x) := by
  obtain ⟨x1, x2, x3⟩ := x
  cases e with
  | ub => exact h.elim
  | wrongArity k => obtain ⟨rfl, ts, h⟩ := h; exact ⟨rfl, ts, h⟩
  | underflow => obtain ⟨rfl, rfl, h⟩ := h; exact ⟨rfl, rfl, h⟩

theorem PopFail.stacked {m0 : Mem V} {e : PopErr} {x : HPop × Mem V × List Nat} (h : PopFail m0 e x) :
    ∃ ts, Stacked m0 x.2.1 ts x.2.2 := by
  cases e with
  | ub => exact h.elim
  | wrongArity k => exact h.2
  | underflow => exact ⟨[], by rw [h.2.1]; exact h.2.2⟩

theorem StSim.fail {m0 : Mem V} {st : PState V} {hs : HState V} (h : StSim m0 st hs) (e : PErr) (k : Nat) :
    StepSim m0 (.error (.err e k)) (.ok (hs.fail e k)) :=
  .inr ⟨_, rfl, rfl, st.nodes, h.nodes⟩

theorem stepGlue_sim (M : Malloc V) (E : Env) (i : Nat) (tok : Str) {m0 : Mem V} {st : PState V} {hs : HState V}
    (h : StSim m0 st hs) : StepSim m0 (stepGlue E i tok st) (stepGlueH M E i tok hs) := by
  unfold stepGlue stepGlueH
  cases E.glue with
  | none => exact ⟨hs, rfl, h⟩
  | some g =>
    simp only [h.infix', h.ops]
    split
    · have hp := pushOperator_sim M g i st.ops h.nodes
      cases he : pushOperator g i st.nodes st.ops with
      | error e =>
        rw [he] at hp
        rcases hp.ub_or with ⟨rfl, hr⟩ | ⟨x, hr, hx⟩
        · rw [hr]; exact .inl ⟨rfl, rfl⟩
        · rw [hr]; exact .inr ⟨_, rfl, hx.exit⟩
      | ok a =>
        rw [he] at hp
        obtain ⟨⟨b1, b2, b3⟩, hr, hb, hb'⟩ := hp
        obtain ⟨a1, a2⟩ := a
        simp only at hb hb'
        subst hb'
        rw [hr]
        cases b3 with
        | nil => exact .inl ⟨rfl, rfl⟩
        | cons d ops => exact ⟨_, rfl, hb, rfl, rfl, h.params⟩
    · exact ⟨hs, rfl, h⟩

theorem stepClosing_sim (M : Malloc V) (i : Nat) {m0 : Mem V} {st : PState V} {hs : HState V}
    (h : StSim m0 st hs) : StepSim m0 (stepClosing i st) (stepClosingH M i hs) := by
  unfold stepClosing stepClosingH
  have hp := popWhile_sim M (fun _ => true) (ops := st.ops) h.nodes
  rw [h.ops]
  cases he : popWhile (fun _ => true) st.nodes st.ops with
  | error e =>
    rw [he] at hp
    rcases hp.ub_or with ⟨rfl, hr⟩ | ⟨x, hr, hx⟩
    · rw [hr]; exact .inl ⟨rfl, rfl⟩
    · rw [hr]
      obtain ⟨ts, hts⟩ := hx.stacked
      refine .inr ⟨_, rfl, ?_⟩
      cases e with
      | ub => exact hx.elim
      | wrongArity k => exact ⟨rfl, ts, hts⟩
      | underflow => exact ⟨rfl, ts, hts⟩
  | ok a =>
    rw [he] at hp
    obtain ⟨⟨b1, b2, b3⟩, hr, hb, hb'⟩ := hp
    obtain ⟨a1, a2⟩ := a
    simp only at hb hb'
    subst hb'
    rw [hr]
    simp only [Out.bind_ok, h.infix']
    cases b3 with
    | nil => exact .inr ⟨_, rfl, rfl, a1, hb⟩
    | cons d ops =>
      simp only
      split
      · rcases ops with _ | ⟨⟨_ | o, a, k⟩, ops⟩
        · exact ⟨_, rfl, hb, rfl, rfl, h.params⟩
        · exact ⟨_, rfl, hb, rfl, rfl, h.params⟩
        · simp only
          split
          · exact ⟨_, rfl, hb, rfl, rfl, h.params⟩
          · exact ⟨_, rfl, hb, rfl, rfl, h.params⟩
      · rcases ops with _ | ⟨⟨_ | o, a, k⟩, ops⟩
        · exact .inr ⟨_, rfl, rfl, a1, hb⟩
        · exact .inr ⟨_, rfl, rfl, a1, hb⟩
        · simp only
          split
          · exact .inr ⟨_, rfl, rfl, a1, hb⟩
          · exact ⟨_, rfl, hb, rfl, rfl, h.params⟩

theorem stepDelimiter_sim (M : Malloc V) (i : Nat) {m0 : Mem V} {st : PState V} {hs : HState V}
    (h : StSim m0 st hs) : StepSim m0 (stepDelimiter i st) (stepDelimiterH M i hs) := by
  unfold stepDelimiter stepDelimiterH
  rw [h.infix']
  split
  · exact h.fail _ _
  · have hp := popWhile_sim M (fun _ => true) (ops := st.ops) h.nodes
    rw [h.ops]
    cases he : popWhile (fun _ => true) st.nodes st.ops with
    | error e =>
      rw [he] at hp
      rcases hp.ub_or with ⟨rfl, hr⟩ | ⟨x, hr, hx⟩
      · rw [hr]; exact .inl ⟨rfl, rfl⟩
      · rw [hr]; exact .inr ⟨_, rfl, hx.exit⟩
    | ok a =>
      rw [he] at hp
      obtain ⟨⟨b1, b2, b3⟩, hr, hb, hb'⟩ := hp
      obtain ⟨a1, a2⟩ := a
      simp only at hb hb'
      subst hb'
      rw [hr]
      simp only [Out.bind_ok]
      rcases b3 with _ | ⟨d, _ | ⟨⟨_ | o, a, k⟩, ops⟩⟩
      · exact .inr ⟨_, rfl, rfl, a1, hb⟩
      · exact .inr ⟨_, rfl, rfl, a1, hb⟩
      · exact .inl ⟨rfl, rfl⟩
      · simp only
        split
        · exact ⟨_, rfl, hb, rfl, rfl, h.params⟩
        · exact .inr ⟨_, rfl, rfl, a1, hb⟩

theorem Stacked.leaf (M : Malloc V) {m0 m : Mem V} {ts : List (Tree V)} {ps : List Nat} (h : Stacked m0 m ts ps)
    {t : Tree V} {c : Cell V} (hc : ∀ g : Nat → Option (Cell V), ∀ p, g p = some c → Holds g t p [p]) :
    Stacked m0 (m.alloc M c).2 (t :: ts) ((m.alloc M c).1 :: ps) := by
  obtain ⟨S, h1, h2, h3, h4, h5⟩ := h
  have hg := Mem.get_alloc M m c
  have hfr := Mem.alloc_fresh M m c
  have haS : (m.alloc M c).1 ∉ S := fun hm => h1.live _ hm hfr
  refine ⟨(m.alloc M c).1 :: S, ⟨_, ps, [(m.alloc M c).1], S, rfl, rfl, hc _ _ (by rw [hg, if_pos rfl]), ?_⟩,
    List.nodup_cons.mpr ⟨haS, h2⟩, ?_, ?_, h5⟩
  · exact h1.congr fun b hb => by rw [hg, if_neg (fun e => haS (by rw [← e]; exact hb))]
  · intro b hb
    rcases List.mem_cons.mp hb with rfl | hb
    · rw [← h4 _ haS, hfr]
    · exact h3 b hb
  · intro b hb
    simp only [List.mem_cons, not_or] at hb
    rw [hg, if_neg hb.1, h4 b hb.2]

theorem stepLeaf_sim (M : Malloc V) (E : Env) (strtod : Str → Option V) (i : Nat) (tok : Str) {m0 : Mem V}
    {st : PState V} {hs : HState V} (h : StSim m0 st hs) :
    StepSim m0 (stepLeaf E strtod i tok st) (.ok (stepLeafH M E strtod i tok hs)) := by
  unfold stepLeaf stepLeafH
  cases strtod tok with
  | some v => exact ⟨_, rfl, h.nodes.leaf M (fun g p e => ⟨e, rfl⟩), h.ops, rfl, h.params⟩
  | none =>
    simp only
    split
    · exact h.fail _ _
    · split
      · exact h.fail _ _
      · exact ⟨_, rfl, h.nodes.leaf M (fun g p e => ⟨e, rfl⟩), h.ops, rfl, h.params⟩

theorem stepOperand_sim (M : Malloc V) (E : Env) (strtod : Str → Option V) (i : Nat) (tok : Str) {m0 : Mem V}
    {st : PState V} {hs : HState V} (h : StSim m0 st hs) :
    StepSim m0 (stepOperand E strtod i tok st) (stepOperandH M E strtod i tok hs) := by
  unfold stepOperand stepOperandH
  cases E.lookup tok .function with
  | some f =>
    simp only
    have hp := pushOperator_sim M f i st.ops h.nodes
    rw [h.ops]
    cases he : pushOperator f i st.nodes st.ops with
    | error e =>
      rw [he] at hp
      rcases hp.ub_or with ⟨rfl, hr⟩ | ⟨x, hr, hx⟩
      · rw [hr]; exact .inl ⟨rfl, rfl⟩
      · rw [hr]; exact .inr ⟨_, rfl, hx.exit⟩
    | ok a =>
      rw [he] at hp
      obtain ⟨⟨b1, b2, b3⟩, hr, hb, hb'⟩ := hp
      obtain ⟨a1, a2⟩ := a
      simp only at hb hb'
      subst hb'
      rw [hr]
      simp only [Out.bind_ok]
      split
      · cases b3 with
        | nil => exact .inl ⟨rfl, rfl⟩
        | cons d ops =>
          simp only
          have hq := popInsert_sim M f d hb
          cases hi : popInsert f d a1 with
          | error e =>
            rw [hi] at hq
            rcases hq.ub_or with ⟨rfl, hr⟩ | ⟨x, hr, hx⟩
            · rw [hr]; exact .inl ⟨rfl, rfl⟩
            · rw [hr]; exact .inr ⟨_, rfl, hx.exit⟩
          | ok a =>
            rw [hi] at hq
            obtain ⟨b, hr, hb⟩ := hq
            rw [hr]
            exact ⟨_, rfl, hb, rfl, rfl, h.params⟩
      · exact ⟨_, rfl, hb, rfl, rfl, rfl⟩
  | none =>
    simp only
    cases E.lookup tok .prefix with
    | some p =>
      simp only
      have hp := pushOperator_sim M p i st.ops h.nodes
      rw [h.ops]
      cases he : pushOperator p i st.nodes st.ops with
      | error e =>
        rw [he] at hp
        rcases hp.ub_or with ⟨rfl, hr⟩ | ⟨x, hr, hx⟩
        · rw [hr]; exact .inl ⟨rfl, rfl⟩
        · rw [hr]; exact .inr ⟨_, rfl, hx.exit⟩
      | ok a =>
        rw [he] at hp
        obtain ⟨⟨b1, b2, b3⟩, hr, hb, hb'⟩ := hp
        rw [hr]
        exact ⟨_, rfl, hb, hb', rfl, h.params⟩
    | none => exact stepLeaf_sim M E strtod i tok h

theorem stepOperator_sim (M : Malloc V) (E : Env) (i : Nat) (tok : Str) {m0 : Mem V}
    {st : PState V} {hs : HState V} (h : StSim m0 st hs) :
    StepSim m0 (stepOperator E i tok st) (stepOperatorH M E i tok hs) := by
  unfold stepOperator stepOperatorH
  rw [h.ops]
  cases E.lookup tok .infix with
  | some o =>
    simp only
    have hp := pushOperator_sim M o i st.ops h.nodes
    cases he : pushOperator o i st.nodes st.ops with
    | error e =>
      rw [he] at hp
      rcases hp.ub_or with ⟨rfl, hr⟩ | ⟨x, hr, hx⟩
      · rw [hr]; exact .inl ⟨rfl, rfl⟩
      · rw [hr]; exact .inr ⟨_, rfl, hx.exit⟩
    | ok a =>
      rw [he] at hp
      obtain ⟨⟨b1, b2, b3⟩, hr, hb, hb'⟩ := hp
      rw [hr]
      exact ⟨_, rfl, hb, hb', rfl, h.params⟩
  | none =>
    simp only
    cases E.lookup tok .postfix with
    | none => exact h.fail _ _
    | some o =>
      simp only
      have hp := pushOperator_sim M o i st.ops h.nodes
      cases he : pushOperator o i st.nodes st.ops with
      | error e =>
        rw [he] at hp
        rcases hp.ub_or with ⟨rfl, hr⟩ | ⟨x, hr, hx⟩
        · rw [hr]; exact .inl ⟨rfl, rfl⟩
        · rw [hr]; exact .inr ⟨_, rfl, hx.exit⟩
      | ok a =>
        rw [he] at hp
        obtain ⟨⟨b1, b2, b3⟩, hr, hb, hb'⟩ := hp
        obtain ⟨a1, a2⟩ := a
        simp only at hb hb'
        subst hb'
        rw [hr]
        simp only [Out.bind_ok]
        cases b3 with
        | nil => exact .inl ⟨rfl, rfl⟩
        | cons d ops =>
          simp only
          have hq := popInsert_sim M o d hb
          cases hi : popInsert o d a1 with
          | error e =>
            rw [hi] at hq
            cases e with
            | ub => rw [hq]; exact .inl ⟨rfl, rfl⟩
            | underflow =>
              obtain ⟨x, hr, hx⟩ := hq
              rw [hr]
              exact ⟨_, rfl, by rw [hx.2.1]; exact hx.2.2, rfl, rfl, h.params⟩
            | wrongArity k =>
              have : popInsertH M o d b1 b2 = .ok (.error (.wrongArity k, b1, b2)) := by
                unfold popInsert at hi
                unfold popInsertH
                split at hi
                · next hc => rw [if_pos hc]; cases hi; rfl
                · split at hi
                  · cases hi
                  · split at hi <;> cases hi
              rw [this]
              exact ⟨_, rfl, hb, rfl, rfl, h.params⟩
          | ok a =>
            rw [hi] at hq
            obtain ⟨b, hr, hb⟩ := hq
            rw [hr]
            exact ⟨_, rfl, hb, rfl, rfl, h.params⟩

theorem stepTok_sim (M : Malloc V) (E : Env) (strtod : Str → Option V) (i : Nat) (tok : Str) {m0 : Mem V}
    {st : PState V} {hs : HState V} (h : StSim m0 st hs) :
    StepSim m0 (stepTok E strtod i tok st) (stepTokH M E strtod i tok hs) := by
  unfold stepTok stepTokH
  split
  · exact ⟨hs, rfl, h⟩
  · have hg := stepGlue_sim M E i tok h
    cases he : stepGlue E i tok st with
    | error e =>
      rw [he] at hg
      rcases hg with ⟨rfl, hr⟩ | ⟨x, hr, hx⟩
      · rw [hr]; exact .inl ⟨rfl, rfl⟩
      · rw [hr]; exact .inr ⟨x, rfl, hx⟩
    | ok st' =>
      rw [he] at hg
      obtain ⟨hs', hr, h⟩ := hg
      rw [hr]
      simp only [Out.bind_ok]
      unfold stepRest stepRestH
      rw [h.infix', h.params]
      split
      · split
        · exact h.fail _ _
        · exact ⟨_, rfl, h.nodes, by rw [h.ops], rfl, rfl⟩
      · split
        · exact h.fail _ _
        · split
          · exact stepClosing_sim M i h
          · split
            · exact stepDelimiter_sim M i h
            · split
              · exact stepOperator_sim M E i tok h
              · exact stepOperand_sim M E strtod i tok h

theorem runToks_sim (M : Malloc V) (E : Env) (strtod : Str → Option V) {m0 : Mem V} :
    ∀ {toks : List (Nat × Str)} {st : PState V} {hs : HState V}, StSim m0 st hs →
    StepSim m0 (runToks E strtod toks st) (runToksH M E strtod toks hs) := by
  intro toks
  induction toks with
  | nil => intro st hs h; exact ⟨hs, rfl, h⟩
  | cons x toks ih =>
    intro st hs h
    obtain ⟨i, tok⟩ := x
    unfold runToks runToksH
    have hg := stepTok_sim M E strtod i tok h
    cases he : stepTok E strtod i tok st with
    | error e =>
      rw [he] at hg
      rcases hg with ⟨rfl, hr⟩ | ⟨x, hr, hx⟩
      · rw [hr]; exact .inl ⟨rfl, rfl⟩
      · rw [hr]; exact .inr ⟨x, rfl, hx⟩
    | ok st' =>
      rw [he] at hg
      obtain ⟨hs', hr, h⟩ := hg
      rw [hr]
      exact ih h

/-! ## The end -/

theorem freeNodes_spec : ∀ {ts : List (Tree V)} {ps : List Nat} {m0 m : Mem V}, Stacked m0 m ts ps →
    ∃ m', freeNodes m ps = .ok m' ∧ m'.get = m0.get ∧ m'.vars = m0.vars := by
  intro ts
  induction ts with
  | nil =>
    rintro ps m0 m ⟨S, ⟨rfl, rfl⟩, _, _, h4, h5⟩
    exact ⟨m, rfl, funext fun a => h4 a (by simp), h5⟩
  | cons t ts ih =>
    rintro ps m0 m ⟨S, ⟨p, qs, S1, S2, rfl, rfl, h3, h4⟩, hn, hf, hs, hv⟩
    rw [List.nodup_append] at hn
    obtain ⟨m1, e1, e2, e3⟩ := freeTree_spec h3 hn.1 (Mem.enough_le h3 hn.1)
    have : Stacked m0 m1 ts qs := by
      refine ⟨S2, ?_, hn.2.1, fun a ha => hf a (by simp [ha]), fun a ha => ?_, e3.trans hv⟩
      · exact h4.congr fun a ha => by rw [e2, if_neg (fun h => hn.2.2 a h a ha rfl)]
      · rw [e2]
        split
        · next h => exact (hf a (by simp [h])).symm
        · next h => exact hs a (by simp [h, ha])
    obtain ⟨m2, f1, f2, f3⟩ := ih this
    exact ⟨m2, by simp [freeNodes, e1, f1], f2, f3⟩

theorem leave_spec {m0 : Mem V} {r : PRes V} {x : HExit V} (h : ExitSim m0 r x) (keep : Bool) :
    ∃ m', leave keep x = .ok (match r with
      | .err e k => .err e k
      | _ => if keep then .okUninit else .ok none, m') ∧ m'.get = m0.get ∧ m'.vars = m0.vars := by
  obtain ⟨x1, x2, x3⟩ := x
  cases r with
  | ok t => exact h.elim
  | ub => exact h.elim
  | err e k =>
    obtain ⟨hx, ts, hts⟩ := h
    simp only at hx
    subst hx
    obtain ⟨m', e1, e2, e3⟩ := freeNodes_spec hts
    exact ⟨m', by simp [leave, e1], e2, e3⟩
  | okUninit =>
    obtain ⟨hx, hn, h⟩ := h
    simp only at hx hn
    subst hx hn
    cases keep with
    | true =>
      obtain ⟨S, ⟨_, rfl⟩, _, _, h4, h5⟩ := h
      exact ⟨x2, rfl, funext fun a => h4 a (by simp), h5⟩
    | false =>
      obtain ⟨m', e1, e2, e3⟩ := freeNodes_spec h
      exact ⟨m', by simp [leave, e1], e2, e3⟩

end Verif
