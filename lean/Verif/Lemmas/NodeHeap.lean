import Verif.Spec.Ownership

/-!
# Lemmas on nodes in memory
-/

namespace Verif
open OwnershipSpec
variable {V ε : Type}

namespace Mem

theorem get_put (m : Mem V) {p : Nat} {d : Cell V} (h : m.get p = some d) (c : Cell V) (a : Nat) :
    (m.put p c).get a = if a = p then some c else m.get a := by
  obtain ⟨cells, vars⟩ := m
  simp only [get, put] at h ⊢
  induction cells with
  | nil => simp at h
  | cons x xs ih =>
    simp only [List.map_cons, List.find?_cons] at h ⊢
    by_cases hx : x.1 = p
    · simp only [hx, if_true]
      by_cases ha : a = p
      · simp [ha]
      · simp only [ha, if_false, decide_eq_false (Ne.symm ha)]
        have : ∀ ys : List (Nat × Cell V), (List.find? (fun c => decide (c.1 = a))
            (ys.map fun d => if d.1 = p then (p, c) else d)) =
            List.find? (fun c => decide (c.1 = a)) ys := by
          intro ys
          induction ys with
          | nil => rfl
          | cons y ys ihy =>
            simp only [List.map_cons, List.find?_cons]
            by_cases hy : y.1 = p
            · simp [hy, Ne.symm ha, ihy]
            · simp only [hy, if_false, ihy]
        rw [this]
    · simp only [hx, if_false, decide_false] at h ⊢
      by_cases hxa : x.1 = a
      · have : a ≠ p := fun e => hx (hxa.trans e)
        simp [hxa, this]
      · simp only [hxa, decide_false]
        exact ih h

theorem get_alloc (M : Malloc V) (m : Mem V) (c : Cell V) (a : Nat) :
    (m.alloc M c).2.get a = if a = (m.alloc M c).1 then some c else m.get a := by
  simp only [get, alloc, List.find?_cons]
  by_cases h : a = M.pick m.cells
  · simp [h]
  · simp [h, Ne.symm h]

theorem alloc_fresh (M : Malloc V) (m : Mem V) (c : Cell V) : m.get (m.alloc M c).1 = none := by
  simp only [get, alloc, Option.map_eq_none_iff, List.find?_eq_none, decide_eq_true_eq]
  intro x hx h
  exact M.fresh m.cells x hx (of_decide_eq_true h)

@[simp] theorem vars_alloc (M : Malloc V) (m : Mem V) (c : Cell V) :
    (m.alloc M c).2.vars = m.vars := rfl

@[simp] theorem vars_put (m : Mem V) (p : Nat) (c : Cell V) : (m.put p c).vars = m.vars := rfl

theorem free_ok {m : Mem V} {p : Nat} {c : Cell V} (h : m.get p = some c) :
    ∃ m', m.free p = .ok m' ∧ (∀ a, m'.get a = if a = p then none else m.get a) ∧
      m'.vars = m.vars := by
  refine ⟨{ m with cells := m.cells.filter fun c => c.1 ≠ p }, by simp only [free, h], fun a => ?_, rfl⟩
  simp only [get, List.find?_filter]
  by_cases ha : a = p
  · have : List.find? (fun c => decide (decide (c.1 ≠ p) = true ∧ decide (c.1 = a) = true)) m.cells = none := by
      rw [List.find?_eq_none]
      intro x _
      simp [ha]
    rw [this]
    simp [ha]
  · simp only [ha, if_false]
    congr 2
    funext x
    by_cases hx : x.1 = a <;> simp [hx, ha]

theorem free_none {m : Mem V} {p : Nat} (h : m.get p = none) : m.free p = .ub := by rw [free, h]

theorem child_ok {m : Mem V} {p k : Nat} {o : Op} {cs : List (Option Nat)} {i : Nat}
    {q : Option Nat} (h : m.get p = some (.op o cs i)) (hk : cs[k]? = some q) :
    m.child p k = .ok q := by
  simp [child, h, hk]

theorem setChild_ok {m : Mem V} {p k : Nat} {o : Op} {cs : List (Option Nat)} {i : Nat}
    (h : m.get p = some (.op o cs i)) (hk : k < cs.length) (q : Option Nat) :
    ∃ m', m.setChild p k q = .ok m' ∧
      (∀ a, m'.get a = if a = p then some (.op o (cs.set k q) i) else m.get a) ∧
      m'.vars = m.vars := by
  refine ⟨m.put p (.op o (cs.set k q) i), by simp [setChild, h, hk], get_put m h _, rfl⟩

end Mem

/-! ## Trees in memory -/

mutual
theorem OwnershipSpec.Holds.congr {g h : Nat → Option (Cell V)} : ∀ {t : Tree V} {p : Nat} {S : List Nat},
    Holds g t p S → (∀ a ∈ S, h a = g a) → Holds h t p S
  | .const v i, p, S, ⟨h1, h2⟩, e => ⟨(e p (by simp [h2])).trans h1, h2⟩
  | .var n x i, p, S, ⟨h1, h2⟩, e => ⟨(e p (by simp [h2])).trans h1, h2⟩
  | .op o cs i, p, S, ⟨ps, T, h1, h2, h3⟩, e =>
    ⟨ps, T, (e p (by simp [h3])).trans h1,
      HoldsAll.congr h2 (fun a ha => e a (by rw [h3]; exact List.mem_cons_of_mem _ ha)), h3⟩
theorem OwnershipSpec.HoldsAll.congr {g h : Nat → Option (Cell V)} : ∀ {ts : List (Tree V)} {ps S : List Nat},
    HoldsAll g ts ps S → (∀ a ∈ S, h a = g a) → HoldsAll h ts ps S
  | [], _, _, h, _ => h
  | c :: cs, _, _, ⟨p, qs, S1, S2, h1, h2, h3, h4⟩, e =>
    ⟨p, qs, S1, S2, h1, h2, Holds.congr h3 fun a ha => e a (by simp [h2, ha]),
      HoldsAll.congr h4 fun a ha => e a (by simp [h2, ha])⟩
end

theorem OwnershipSpec.Holds.root_mem {g : Nat → Option (Cell V)} {t : Tree V} {p : Nat} {S : List Nat}
    (h : Holds g t p S) : p ∈ S := by
  cases t with
  | const v i => simp [h.2]
  | var n x i => simp [h.2]
  | op o cs i => obtain ⟨ps, T, _, _, h3⟩ := h; simp [h3]

mutual
theorem OwnershipSpec.Holds.live {g : Nat → Option (Cell V)} : ∀ {t : Tree V} {p : Nat} {S : List Nat},
    Holds g t p S → ∀ a ∈ S, g a ≠ none
  | .const v i, p, S, ⟨h1, h2⟩, a, ha => by simp [h2] at ha; simp [ha, h1]
  | .var n x i, p, S, ⟨h1, h2⟩, a, ha => by simp [h2] at ha; simp [ha, h1]
  | .op o cs i, p, S, ⟨ps, T, h1, h2, h3⟩, a, ha => by
    rw [h3, List.mem_cons] at ha
    rcases ha with rfl | ha
    · simp [h1]
    · exact HoldsAll.live h2 a ha
theorem OwnershipSpec.HoldsAll.live {g : Nat → Option (Cell V)} : ∀ {ts : List (Tree V)} {ps S : List Nat},
    HoldsAll g ts ps S → ∀ a ∈ S, g a ≠ none
  | [], _, _, h, a, ha => by simp [h.2] at ha
  | c :: cs, _, _, ⟨p, qs, S1, S2, h1, h2, h3, h4⟩, a, ha => by
    rw [h2, List.mem_append] at ha
    rcases ha with ha | ha
    · exact Holds.live h3 a ha
    · exact HoldsAll.live h4 a ha
end

theorem OwnershipSpec.HoldsAll.length {g : Nat → Option (Cell V)} : ∀ {ts : List (Tree V)} {ps S : List Nat},
    HoldsAll g ts ps S → ps.length = ts.length
  | [], _, _, h => by simp [h.1]
  | c :: cs, _, _, ⟨p, qs, S1, S2, h1, h2, h3, h4⟩ => by simp [h1, HoldsAll.length h4]

theorem OwnershipSpec.HoldsAll.append {g : Nat → Option (Cell V)} : ∀ {ts us : List (Tree V)} {ps qs S T : List Nat},
    HoldsAll g ts ps S → HoldsAll g us qs T → HoldsAll g (ts ++ us) (ps ++ qs) (S ++ T)
  | [], us, ps, qs, S, T, h, h' => by obtain ⟨rfl, rfl⟩ := h; simpa using h'
  | c :: cs, us, _, qs, _, T, ⟨p, rs, S1, S2, h1, h2, h3, h4⟩, h' =>
    ⟨p, rs ++ qs, S1, S2 ++ T, by simp [h1], by simp [h2], h3, HoldsAll.append h4 h'⟩

theorem OwnershipSpec.HoldsAll.split {g : Nat → Option (Cell V)} : ∀ {ts us : List (Tree V)} {ps S : List Nat},
    HoldsAll g (ts ++ us) ps S → ∃ p1 p2 S1 S2, ps = p1 ++ p2 ∧ S = S1 ++ S2 ∧ HoldsAll g ts p1 S1 ∧
      HoldsAll g us p2 S2
  | [], us, ps, S, h => ⟨[], ps, [], S, rfl, rfl, ⟨rfl, rfl⟩, h⟩
  | c :: cs, us, _, _, ⟨p, rs, S1, S2, h1, h2, h3, h4⟩ => by
    obtain ⟨p1, p2, T1, T2, e1, e2, e3, e4⟩ := HoldsAll.split (ts := cs) h4
    exact ⟨p :: p1, p2, S1 ++ T1, T2, by simp [h1, e1], by simp [h2, e2],
      ⟨p, p1, S1, T1, rfl, rfl, h3, e3⟩, e4⟩

/-! ## Places -/

/-- The memory after a pointer was written to a place. -/
def putSlot (g : Nat → Option (Cell V)) (slot : Slot) (y : Option Nat) (a : Nat) : Option (Cell V) :=
  match slot with
  | .var _ => g a
  | .child p k =>
    if a = p then
      match g a with
      | some (.op o cs i) => some (.op o (cs.set k y) i)
      | c => c
    else g a

/-- The variables after a pointer was written to a place. -/
def putVar (vars : Nat → Option Nat) (slot : Slot) (y : Option Nat) : Nat → Option Nat :=
  match slot with
  | .var x => fun z => if z = x then y else vars z
  | .child _ _ => vars

theorem putSlot_none {g : Nat → Option (Cell V)} {slot : Slot} {y : Option Nat} {a : Nat} :
    putSlot g slot y a = none ↔ g a = none := by
  cases slot with
  | var x => rfl
  | child p k =>
    simp only [putSlot]
    split
    · cases h : g a with
      | none => simp
      | some c => cases c <;> simp
    · rfl

theorem putSlot_congr {g h : Nat → Option (Cell V)} {slot : Slot} {y : Option Nat} {a : Nat}
    (e : g a = h a) : putSlot g slot y a = putSlot h slot y a := by
  cases slot <;> simp only [putSlot, e]

theorem putSlot_other {g : Nat → Option (Cell V)} {slot : Slot} {y : Option Nat} {a : Nat}
    (e : ∀ b k, slot = .child b k → b ≠ a) : putSlot g slot y a = g a := by
  cases slot with
  | var x => rfl
  | child p k => simp only [putSlot, if_neg (Ne.symm (e p k rfl))]

theorem putSlot_twice {g : Nat → Option (Cell V)} {slot : Slot} {y z : Option Nat} {a : Nat} :
    putSlot (putSlot g slot y) slot z a = putSlot g slot z a := by
  cases slot with
  | var x => rfl
  | child p k =>
    simp only [putSlot]
    split
    · cases h : g a with
      | none => simp
      | some c => cases c <;> simp [List.set_set]
    · rfl

theorem putVar_twice {vars : Nat → Option Nat} {slot : Slot} {y z : Option Nat} :
    putVar (putVar vars slot y) slot z = putVar vars slot z := by
  cases slot with
  | var x => funext a; simp only [putVar]; split <;> rfl
  | child p k => rfl

namespace Mem

theorem deref_child {m : Mem V} {p k : Nat} {x : Option Nat} (h : m.deref (.child p k) = .ok x) :
    ∃ o cs i, m.get p = some (.op o cs i) ∧ cs[k]? = some x := by
  simp only [deref, child] at h
  split at h
  · split at h
    · next q hq => cases h; exact ⟨_, _, _, by assumption, hq⟩
    · exact absurd h (by simp)
  · exact absurd h (by simp)

theorem assign_ok {m : Mem V} {slot : Slot} {x : Option Nat} (h : m.deref slot = .ok x)
    (y : Option Nat) : ∃ m1, m.assign slot y = .ok m1 ∧ m1.get = putSlot m.get slot y ∧
      m1.vars = putVar m.vars slot y := by
  cases slot with
  | var z => exact ⟨_, rfl, rfl, rfl⟩
  | child p k =>
    obtain ⟨o, cs, i, h1, h2⟩ := deref_child h
    obtain ⟨hk, _⟩ := List.getElem?_eq_some_iff.mp h2
    obtain ⟨m1, e1, e2, e3⟩ := setChild_ok h1 hk y
    refine ⟨m1, e1, ?_, e3⟩
    funext a
    rw [e2, putSlot]
    by_cases ha : a = p
    · simp [ha, h1]
    · simp [ha]

theorem putSlot_same {m : Mem V} {slot : Slot} {x : Option Nat} (h : m.deref slot = .ok x) :
    putSlot m.get slot x = m.get ∧ putVar m.vars slot x = m.vars := by
  cases slot with
  | var z =>
    simp only [deref, Out.ok.injEq] at h
    refine ⟨rfl, ?_⟩
    funext a
    simp only [putVar]
    split
    · next e => rw [e, h]
    · rfl
  | child p k =>
    obtain ⟨o, cs, i, h1, h2⟩ := deref_child h
    refine ⟨?_, rfl⟩
    funext a
    simp only [putSlot]
    by_cases ha : a = p
    · subst ha
      simp only [if_pos, h1]
      obtain ⟨hk, e⟩ := List.getElem?_eq_some_iff.mp h2
      rw [← e, List.set_getElem_self]
    · simp [ha]

/-- What is read from a place depends only on the node the place is in. -/
theorem deref_congr {m m' : Mem V} {slot : Slot} {x : Option Nat} (h : m.deref slot = .ok x)
    (hv : m'.vars = m.vars) (hg : ∀ a k, slot = .child a k → m'.get a = m.get a) :
    m'.deref slot = .ok x := by
  cases slot with
  | var z => simpa [deref, hv] using h
  | child p k => simpa [deref, child, hg p k rfl] using h

/-- What is written to a place can be read there. -/
theorem deref_put {m m' : Mem V} {slot : Slot} {x y : Option Nat} (h : m.deref slot = .ok x)
    (hv : m'.vars = putVar m.vars slot y)
    (hg : ∀ a k, slot = .child a k → m'.get a = putSlot m.get slot y a) :
    m'.deref slot = .ok y := by
  cases slot with
  | var z => simp [deref, hv, putVar]
  | child p k =>
    obtain ⟨o, cs, i, h1, h2⟩ := deref_child h
    obtain ⟨hk, _⟩ := List.getElem?_eq_some_iff.mp h2
    simp [deref, child, hg p k rfl, putSlot, h1, List.getElem?_set_self hk]

end Mem

/-- `Becomes` with the nodes of the new tree. -/
def Trade (m : Mem V) (slot : Slot) (S : List Nat) (t : Tree V) (T : List Nat) (m' : Mem V) : Prop :=
  ∃ q, Exchanged (putSlot m.get slot (some q)) m'.get S t q T ∧
    m'.vars = putVar m.vars slot (some q)

theorem Trade.becomes {m m' : Mem V} {slot : Slot} {S T : List Nat} {t u : Tree V}
    (h : At m slot t S) (e : Trade m slot S u T m') : Becomes m slot S u m' := by
  obtain ⟨p, h1, _⟩ := h
  obtain ⟨q, e1, e2⟩ := e
  obtain ⟨m1, f1, f2, f3⟩ := Mem.assign_ok h1 (some q)
  exact ⟨q, T, m1, f1, f2 ▸ e1, e2.trans f3.symm⟩

theorem Trade.refl {m : Mem V} {slot : Slot} {t : Tree V} {S : List Nat} (h : At m slot t S) :
    Trade m slot S t S m := by
  obtain ⟨p, h1, h2, h3, _⟩ := h
  obtain ⟨e1, e2⟩ := Mem.putSlot_same h1
  refine ⟨p, ?_, e2.symm⟩
  rw [e1]
  exact ⟨h2, h3, fun a ha => .inl ha, fun a ha hb => absurd ha hb, fun _ _ _ => rfl⟩

/-- The node a place is in is allocated. -/
theorem OwnershipSpec.At.owner {m : Mem V} {slot : Slot} {t : Tree V} {S : List Nat} (h : At m slot t S)
    {a k : Nat} (e : slot = .child a k) : m.get a ≠ none ∧ a ∉ S := by
  obtain ⟨p, h1, _, _, h4⟩ := h
  refine ⟨?_, h4 a k e⟩
  subst e
  obtain ⟨o, cs, i, h1, _⟩ := Mem.deref_child h1
  simp [h1]

theorem Trade.not_owner {m m' : Mem V} {slot : Slot} {S T : List Nat} {t u : Tree V}
    (h : At m slot t S) (e : Trade m slot S u T m') {a k : Nat} (hs : slot = .child a k) :
    a ∉ T := by
  intro ha
  obtain ⟨q, e1, _⟩ := e
  rcases e1.fresh a ha with h' | h'
  · exact (h.owner hs).2 h'
  · exact (h.owner hs).1 (putSlot_none.mp h')

theorem Trade.at {m m' : Mem V} {slot : Slot} {S T : List Nat} {t u : Tree V}
    (h : At m slot t S) (e : Trade m slot S u T m') : At m' slot u T := by
  have hno := fun a k hs => e.not_owner h (a := a) (k := k) hs
  have ho := fun a k hs => h.owner (a := a) (k := k) hs
  obtain ⟨p, h1, _⟩ := h
  obtain ⟨q, e1, e2⟩ := e
  exact ⟨q, Mem.deref_put h1 e2 (fun a k hs => e1.frame a (ho a k hs).2 (hno a k hs)), e1.holds,
    e1.nodup, hno⟩

theorem Trade.trans {m m' m'' : Mem V} {slot : Slot} {S T U : List Nat} {t u v : Tree V}
    (h : At m slot t S) (e : Trade m slot S u T m') (f : Trade m' slot T v U m'') :
    Trade m slot S v U m'' := by
  have hno := fun a k hs => e.not_owner h (a := a) (k := k) hs
  have hU : ∀ a k, slot = .child a k → a ∉ U := fun a k hs => f.not_owner (e.at h) hs
  have ho := fun a k hs => h.owner (a := a) (k := k) hs
  obtain ⟨p, h1, _⟩ := h
  obtain ⟨q, e1, e2⟩ := e
  obtain ⟨r, f1, f2⟩ := f
  refine ⟨r, ⟨f1.holds, f1.nodup, ?_, ?_, ?_⟩, by rw [f2, e2, putVar_twice]⟩
  · intro a ha
    by_cases hS : a ∈ S
    · exact .inl hS
    refine .inr (putSlot_none.mpr ?_)
    rcases f1.fresh a ha with hT | hT
    · rcases e1.fresh a hT with h' | h'
      · exact absurd h' hS
      · exact putSlot_none.mp h'
    · by_cases hT' : a ∈ T
      · exact absurd (putSlot_none.mp hT) (e1.holds.live a hT')
      · have := e1.frame a hS hT'
        rw [putSlot_none.mp hT] at this
        exact putSlot_none.mp this.symm
  · intro a ha hb
    by_cases hT : a ∈ T
    · exact f1.freed a hT hb
    · rw [f1.frame a hT hb]
      exact putSlot_none.mpr (e1.freed a ha hT)
  · intro a ha hb
    by_cases hT : a ∈ T
    · rw [f1.freed a hT hb]
      rcases e1.fresh a hT with h' | h'
      · exact absurd h' ha
      · exact (putSlot_none.mpr (putSlot_none.mp h')).symm
    · rw [f1.frame a hT hb, putSlot_congr (e1.frame a ha hT), putSlot_twice]

/-- A child of a tree in memory. -/
theorem OwnershipSpec.At.child {m : Mem V} {slot : Slot} {o : Op} {ds ts : List (Tree V)} {c : Tree V}
    {i : Nat} {S : List Nat} (h : At m slot (.op o (ds ++ c :: ts) i) S) :
    ∃ p cs S1, m.deref slot = .ok (some p) ∧ m.get p = some (.op o cs i) ∧
      cs.length = (ds ++ c :: ts).length ∧ At m (.child p ds.length) c S1 ∧ (∀ a ∈ S1, a ∈ S) ∧
      ∀ c' T m', Trade m (.child p ds.length) S1 c' T m' →
        ∃ U, Trade m slot S (.op o (ds ++ c' :: ts) i) U m' := by
  have ho := fun a k hs => h.owner (a := a) (k := k) hs
  obtain ⟨p, h1, ⟨ps, R, h2, h3, rfl⟩, h4, h5⟩ := h
  have hl := h3.length
  obtain ⟨p1, p2, R1, R2, rfl, rfl, h6, q, p3, Rc, R3, rfl, rfl, h7, h8⟩ := h3.split
  have hl1 := h6.length
  rw [List.nodup_cons, List.nodup_append, List.nodup_append] at h4
  obtain ⟨hp, hn1, ⟨hnc, hn3, hd3⟩, hd1⟩ := h4
  simp only [List.mem_append, not_or] at hp hd1
  have hderef : m.deref (.child p ds.length) = .ok (some q) := by
    rw [← hl1]
    exact Mem.child_ok h2 (by simp)
  refine ⟨p, _, Rc, h1, h2, by simpa using hl, ⟨q, hderef, h7, hnc, ?_⟩, by simp +contextual, ?_⟩
  · intro a k e; cases e; exact hp.2.1
  rintro c' T m' ⟨q', e1, e2⟩
  have hg : ∀ a, a ≠ p → putSlot m.get (.child p ds.length) (some q') a = m.get a := fun a ha =>
    putSlot_other (fun b k e => by cases e; exact Ne.symm ha)
  have hpT : p ∉ T := fun hT => by
    rcases e1.fresh p hT with h' | h'
    · exact hp.2.1 h'
    · rw [putSlot_none, h2] at h'; simp at h'
  have hfr : ∀ a ∈ T, a ∈ Rc ∨ m.get a = none := fun a ha => by
    rcases e1.fresh a ha with h' | h'
    · exact .inl h'
    · exact .inr (putSlot_none.mp h')
  have hT1 : ∀ a ∈ R1, a ∉ T := fun a ha hT => by
    rcases hfr a hT with h' | h'
    · exact hd1 a ha a (.inl h') rfl
    · exact h6.live a ha h'
  have hT3 : ∀ a ∈ R3, a ∉ T := fun a ha hT => by
    rcases hfr a hT with h' | h'
    · exact hd3 a h' a ha rfl
    · exact h8.live a ha h'
  obtain ⟨s1, s2⟩ := Mem.putSlot_same h1
  refine ⟨p :: (R1 ++ (T ++ R3)), p, ⟨⟨p1 ++ q' :: p3, _, ?_, ?_, rfl⟩, ?_, ?_, ?_, ?_⟩,
    by rw [e2, s2]; rfl⟩
  · rw [e1.frame p hp.2.1 hpT]
    simp only [putSlot, if_pos, h2]
    rw [← hl1]
    simp
  · refine (h6.congr fun a ha => ?_).append ⟨q', p3, T, R3, rfl, rfl, e1.holds, h8.congr fun a ha => ?_⟩
    · rw [e1.frame a (fun h' => hd1 a ha a (.inl h') rfl) (hT1 a ha),
        hg a (fun e => hp.1 (e ▸ ha))]
    · rw [e1.frame a (fun h' => hd3 a h' a ha rfl) (hT3 a ha),
        hg a (fun e => hp.2.2 (e ▸ ha))]
  · simp only [List.nodup_cons, List.nodup_append, List.mem_append, not_or]
    refine ⟨⟨hp.1, hpT, hp.2.2⟩, hn1, ⟨e1.nodup, hn3, fun a ha b hb e => hT3 b hb (e ▸ ha)⟩, ?_⟩
    rintro a ha b (hb | hb) rfl
    · exact hT1 _ ha hb
    · exact hd1 _ ha _ (.inr hb) rfl
  · intro a ha
    rw [s1]
    simp only [List.mem_cons, List.mem_append] at ha ⊢
    rcases ha with h' | h' | h' | h'
    · exact .inl (.inl h')
    · exact .inl (.inr (.inl h'))
    · rcases hfr a h' with h'' | h''
      · exact .inl (.inr (.inr (.inl h'')))
      · exact .inr h''
    · exact .inl (.inr (.inr (.inr h')))
  · intro a ha hb
    simp only [List.mem_cons, List.mem_append, not_or] at ha hb
    rcases ha with h' | h' | h' | h'
    · exact absurd h' hb.1
    · exact absurd h' hb.2.1
    · exact e1.freed a h' hb.2.2.1
    · exact absurd h' hb.2.2.2
  · intro a ha hb
    rw [s1]
    simp only [List.mem_cons, List.mem_append, not_or] at ha hb
    rw [e1.frame a ha.2.2.1 hb.2.2.1, hg a ha.1]

mutual
/-- Enough calls and rounds for a walk over the tree. -/
def calls : Tree V → Nat
  | .const _ _ => 1
  | .var _ _ _ => 1
  | .op _ cs _ => 1 + callsAll cs
/-- The same for the loop over the children. -/
def callsAll : List (Tree V) → Nat
  | [] => 1
  | c :: cs => 1 + calls c + callsAll cs
end

/-! ## free_tree -/

mutual
theorem freeTree_spec : ∀ {t : Tree V} {m : Mem V} {p : Nat} {S : List Nat} {fuel : Nat},
    Holds m.get t p S → S.Nodup → calls t ≤ fuel →
    ∃ m', freeTree fuel m (some p) = .ok m' ∧
      (∀ a, m'.get a = if a ∈ S then none else m.get a) ∧ m'.vars = m.vars
  | .const v i, m, p, S, fuel, ⟨h1, h2⟩, _, hf => by
    cases fuel with
    | zero => simp [calls] at hf
    | succ n =>
      obtain ⟨m', e1, e2, e3⟩ := Mem.free_ok h1
      exact ⟨m', by simp [freeTree, h1, e1], by simpa [h2] using e2, e3⟩
  | .var x k i, m, p, S, fuel, ⟨h1, h2⟩, _, hf => by
    cases fuel with
    | zero => simp [calls] at hf
    | succ n =>
      obtain ⟨m', e1, e2, e3⟩ := Mem.free_ok h1
      exact ⟨m', by simp [freeTree, h1, e1], by simpa [h2] using e2, e3⟩
  | .op o cs i, m, p, S, fuel, ⟨ps, T, h1, h2, h3⟩, hn, hf => by
    cases fuel with
    | zero => simp [calls] at hf
    | succ n =>
      rw [h3, List.nodup_cons] at hn
      obtain ⟨m1, e1, e2, e3⟩ := freeChildren_spec (pre := []) (n := n) h2 hn.2 (p := p)
        (by simpa using h1) hn.1 (by simp only [calls] at hf; omega)
      obtain ⟨m2, f1, f2, f3⟩ := Mem.free_ok ((e2 p).trans (by rw [if_neg hn.1]; exact h1))
      refine ⟨m2, by simp only [List.length_nil] at e1; simp [freeTree, h1, e1, f1], fun a => ?_, f3.trans e3⟩
      rw [f2 a, e2 a, h3]
      by_cases ha : a = p <;> simp [ha]
theorem freeChildren_spec : ∀ {ts : List (Tree V)} {m : Mem V} {p : Nat} {ps S : List Nat}
    {pre : List (Option Nat)} {o : Op} {i n : Nat},
    HoldsAll m.get ts ps S → S.Nodup → m.get p = some (.op o (pre ++ ps.map some) i) → p ∉ S →
    callsAll ts ≤ n →
    ∃ m', freeChildren n m p pre.length = .ok m' ∧
      (∀ a, m'.get a = if a ∈ S then none else m.get a) ∧ m'.vars = m.vars
  | [], m, p, ps, S, pre, o, i, n, h, _, hp, _, hf => by
    obtain ⟨rfl, rfl⟩ := h
    cases n with
    | zero => simp [callsAll] at hf
    | succ n => exact ⟨m, by simp [freeChildren, hp], by simp, rfl⟩
  | c :: cs, m, p, ps, S, pre, o, i, n, ⟨q, qs, S1, S2, h1, h2, h3, h4⟩, hn, hp, hpS, hf => by
    cases n with
    | zero => simp [callsAll] at hf
    | succ n =>
      subst h1 h2
      rw [List.nodup_append] at hn
      simp only [List.mem_append, not_or] at hpS
      simp only [callsAll] at hf
      obtain ⟨m1, e1, e2, e3⟩ := freeTree_spec (fuel := n) h3 hn.1 (by omega)
      have h4' : HoldsAll m1.get cs qs S2 := h4.congr fun a ha => by
        rw [e2 a, if_neg (fun h => hn.2.2 a h a ha rfl)]
      obtain ⟨m2, f1, f2, f3⟩ := freeChildren_spec (n := n) (pre := pre ++ [some q]) h4' hn.2.1 (p := p)
        (o := o) (i := i) (by rw [e2 p, if_neg hpS.1, hp]; simp) hpS.2 (by omega)
      refine ⟨m2, by simpa [freeChildren, hp, e1] using f1, fun a => ?_, f3.trans e3⟩
      rw [f2 a, e2 a]
      by_cases ha : a ∈ S1 <;> by_cases hb : a ∈ S2 <;> simp [ha, hb]
end

mutual
/-- Nodes that have been freed already, or that are reached twice, are freed twice. -/
theorem freeTree_ub {g : Nat → Option (Cell V)} : ∀ {t : Tree V} {m : Mem V} {p : Nat} {S F : List Nat}
    {fuel : Nat}, Holds g t p S → (∀ a, m.get a = if a ∈ F then none else g a) → calls t ≤ fuel →
    ¬ (S.Nodup ∧ ∀ a ∈ S, a ∉ F) → freeTree fuel m (some p) = .ub
  | .const v i, m, p, S, F, fuel, ⟨h1, h2⟩, hm, hf, hn => by
    cases fuel with
    | zero => simp [calls] at hf
    | succ n =>
      have : p ∈ F := by simpa [h2] using hn
      simp [freeTree, hm p, this]
  | .var x k i, m, p, S, F, fuel, ⟨h1, h2⟩, hm, hf, hn => by
    cases fuel with
    | zero => simp [calls] at hf
    | succ n =>
      have : p ∈ F := by simpa [h2] using hn
      simp [freeTree, hm p, this]
  | .op o cs i, m, p, S, F, fuel, ⟨ps, T, h1, h2, h3⟩, hm, hf, hn => by
    cases fuel with
    | zero => simp [calls] at hf
    | succ n =>
      by_cases hp : p ∈ F
      · simp [freeTree, hm p, hp]
      · have hmp : m.get p = some (.op o (ps.map some) i) := by rw [hm, if_neg hp, h1]
        have := freeChildren_ub (n := n) (pre := []) (p := p) (F := F) h2 hm hp h1
          (by simp only [calls] at hf; omega) (by
            rintro ⟨x1, x2⟩
            apply hn
            rw [h3]
            refine ⟨List.nodup_cons.mpr ⟨fun h' => (x2 p h').2 rfl, x1⟩, fun a ha => ?_⟩
            rcases List.mem_cons.mp ha with rfl | ha
            · exact hp
            · exact (x2 a ha).1)
        simp only [List.length_nil] at this
        simp only [freeTree, hmp, this]
        rfl
theorem freeChildren_ub {g : Nat → Option (Cell V)} : ∀ {ts : List (Tree V)} {m : Mem V} {p : Nat}
    {ps S F : List Nat} {pre : List (Option Nat)} {o : Op} {i n : Nat},
    HoldsAll g ts ps S → (∀ a, m.get a = if a ∈ F then none else g a) → p ∉ F →
    g p = some (.op o (pre ++ ps.map some) i) → callsAll ts ≤ n →
    ¬ (S.Nodup ∧ ∀ a ∈ S, a ∉ F ∧ a ≠ p) → freeChildren n m p pre.length = .ub
  | [], m, p, ps, S, F, pre, o, i, n, h, _, _, _, _, hn => by
    obtain ⟨rfl, rfl⟩ := h
    simp at hn
  | c :: cs, m, p, ps, S, F, pre, o, i, n, ⟨q, qs, S1, S2, h1, h2, h3, h4⟩, hm, hpF, hp, hf, hn => by
    cases n with
    | zero => simp [callsAll] at hf
    | succ n =>
      subst h1 h2
      simp only [callsAll] at hf
      have hmp : m.get p = some (.op o (pre ++ (q :: qs).map some) i) := by rw [hm, if_neg hpF, hp]
      by_cases hc : S1.Nodup ∧ ∀ a ∈ S1, a ∉ F
      · obtain ⟨m1, e1, e2, e3⟩ := freeTree_spec (fuel := n) (m := m)
          (h3.congr fun a ha => by rw [hm, if_neg (hc.2 a ha)]) hc.1 (by omega)
        have hm1 : ∀ a, m1.get a = if a ∈ S1 ++ F then none else g a := by
          intro a
          rw [e2, hm]
          by_cases x1 : a ∈ S1 <;> by_cases x2 : a ∈ F <;> simp [x1, x2]
        have key : freeChildren n m1 p (pre.length + 1) = .ub := by
          by_cases hpS : p ∈ S1
          · cases n with
            | zero => cases cs <;> simp only [callsAll] at hf <;> omega
            | succ n => simp [freeChildren, hm1 p, hpS]
          · have := freeChildren_ub (n := n) (pre := pre ++ [some q]) (p := p) (F := S1 ++ F) h4 hm1
              (by simp [hpS, hpF]) (by simpa using hp) (by omega) (by
                rintro ⟨x1, x2⟩
                apply hn
                refine ⟨List.nodup_append.mpr ⟨hc.1, x1, fun a ha b hb e => ?_⟩, fun a ha => ?_⟩
                · have := (x2 b hb).1
                  simp only [List.mem_append, not_or] at this
                  exact this.1 (e ▸ ha)
                · rcases List.mem_append.mp ha with ha | ha
                  · exact ⟨hc.2 a ha, fun e => hpS (e ▸ ha)⟩
                  · have := x2 a ha
                    simp only [List.mem_append, not_or] at this
                    exact ⟨this.1.2, this.2⟩)
            simpa using this
        simp [freeChildren, hmp, e1, key]
      · have := freeTree_ub (fuel := n) h3 hm (by omega) hc
        simp only [freeChildren, hmp]
        simp [this]
end

/-! ## tree_copy -/

mutual
theorem copyTree_spec (M : Malloc V) : ∀ {t : Tree V} {m : Mem V} {p : Nat} {S : List Nat}
    {fuel : Nat}, Holds m.get t p S → calls t ≤ fuel →
    ∃ q m' T, copyTree M fuel m (some p) = .ok (some q, m') ∧ Holds m'.get t q T ∧ T.Nodup ∧
      (∀ a ∈ T, m.get a = none) ∧ (∀ a, a ∉ T → m'.get a = m.get a) ∧ m'.vars = m.vars
  | .const v i, m, p, S, fuel, ⟨h1, h2⟩, hf => by
    cases fuel with
    | zero => simp [calls] at hf
    | succ n =>
      refine ⟨_, (m.alloc M (.const v i)).2, [(m.alloc M (.const v i)).1], by simp only [copyTree, h1],
        ⟨by simp [Mem.get_alloc], rfl⟩, by simp, by simp [Mem.alloc_fresh], ?_, rfl⟩
      intro a ha
      rw [Mem.get_alloc, if_neg (by simpa using ha)]
  | .var x k i, m, p, S, fuel, ⟨h1, h2⟩, hf => by
    cases fuel with
    | zero => simp [calls] at hf
    | succ n =>
      refine ⟨_, (m.alloc M (.var x k i)).2, [(m.alloc M (.var x k i)).1], by simp only [copyTree, h1],
        ⟨by simp [Mem.get_alloc], rfl⟩, by simp, by simp [Mem.alloc_fresh], ?_, rfl⟩
      intro a ha
      rw [Mem.get_alloc, if_neg (by simpa using ha)]
  | .op o cs i, m, p, S, fuel, ⟨ps, T, h1, h2, h3⟩, hf => by
    cases fuel with
    | zero => simp [calls] at hf
    | succ n =>
      generalize hA : m.alloc M (.op o (List.replicate (ps.map some).length none) i) = A
      have hfr : m.get A.1 = none := by rw [← hA]; exact Mem.alloc_fresh ..
      have hg : ∀ a, A.2.get a = if a = A.1 then
          some (.op o (List.replicate (ps.map some).length none) i) else m.get a := by
        intro a; rw [← hA]; exact Mem.get_alloc ..
      have hne : ∀ a, m.get a ≠ none → a ≠ A.1 := fun a ha e => ha (e ▸ hfr)
      have hT : ∀ a ∈ T, A.2.get a = m.get a := fun a ha => by
        rw [hg, if_neg (hne a (h2.live a ha))]
      have hpA : p ≠ A.1 := hne p (by simp [h1])
      obtain ⟨qs, m', U, e1, e2, e3, e4, e5, e6, e7⟩ := copyChildren_spec M (n := n) (m := A.2)
        (p := p) (r := A.1) (pre := []) (qs := []) (h2.congr hT) (o := o) (i := i) (o' := o) (i' := i)
        (by rw [hg, if_neg hpA]; simpa using h1) (by rw [hg, if_pos rfl]; simp) rfl
        (fun h => (h2.live _ h) hfr) hpA (by simp only [calls] at hf; omega)
      have hAU : A.1 ∉ U := fun h => by have := e4 _ h; rw [hg, if_pos rfl] at this; simp at this
      refine ⟨A.1, m', A.1 :: U, ?_, ⟨qs, U, by simpa using e5, e2, rfl⟩, ?_, ?_, ?_, ?_⟩
      · simp only [List.length_nil] at e1
        simp only [copyTree, h1, hA, e1, Out.bind_ok, Out.pure_eq]
      · exact List.nodup_cons.mpr ⟨hAU, e3⟩
      · intro a ha
        rcases List.mem_cons.mp ha with rfl | ha
        · exact hfr
        · have := e4 a ha
          rw [hg] at this
          split at this
          · simp at this
          · exact this
      · intro a ha
        simp only [List.mem_cons, not_or] at ha
        rw [e6 a ha.2 ha.1, hg, if_neg ha.1]
      · rw [e7, ← hA]; rfl
theorem copyChildren_spec (M : Malloc V) : ∀ {ts : List (Tree V)} {m : Mem V} {p r : Nat}
    {ps S : List Nat} {pre qs : List (Option Nat)} {o o' : Op} {i i' n : Nat},
    HoldsAll m.get ts ps S → m.get p = some (.op o (pre ++ ps.map some) i) →
    m.get r = some (.op o' (qs ++ List.replicate ps.length none) i') → qs.length = pre.length →
    r ∉ S → p ≠ r → callsAll ts ≤ n →
    ∃ rs m' T, copyChildren M n m p r pre.length = .ok m' ∧ HoldsAll m'.get ts rs T ∧ T.Nodup ∧
      (∀ a ∈ T, m.get a = none) ∧ m'.get r = some (.op o' (qs ++ rs.map some) i') ∧
      (∀ a, a ∉ T → a ≠ r → m'.get a = m.get a) ∧ m'.vars = m.vars
  | [], m, p, r, ps, S, pre, qs, o, o', i, i', n, h, hp, hr, hl, hrS, hpr, hf => by
    obtain ⟨rfl, rfl⟩ := h
    cases n with
    | zero => simp [callsAll] at hf
    | succ n =>
      exact ⟨[], m, [], by simp [copyChildren, hp], ⟨rfl, rfl⟩, by simp, by simp,
        by simpa using hr, by simp, rfl⟩
  | c :: cs, m, p, r, ps, S, pre, qs, o, o', i, i', n, ⟨q, ps', S1, S2, h1, h2, h3, h4⟩, hp, hr, hl,
      hrS, hpr, hf => by
    cases n with
    | zero => simp [callsAll] at hf
    | succ n =>
      subst h1 h2
      simp only [List.mem_append, not_or] at hrS
      simp only [callsAll] at hf
      obtain ⟨q', m1, T1, e1, e2, e3, e4, e5, e6⟩ := copyTree_spec M (fuel := n) h3 (by omega)
      have hlive : ∀ a, m.get a ≠ none → a ∉ T1 := fun a ha h => ha (e4 a h)
      have hr1 : m1.get r = some (.op o' (qs ++ List.replicate (q :: ps').length none) i') := by
        rw [e5 r (hlive r (by simp [hr])), hr]
      obtain ⟨m2, f1, f2, f3⟩ := Mem.setChild_ok hr1 (k := pre.length) (by simp [hl]) (some q')
      have hset : (qs ++ List.replicate (q :: ps').length (none : Option Nat)).set pre.length (some q') =
          (qs ++ [some q']) ++ List.replicate ps'.length none := by
        rw [← hl, List.set_append_right _ _ (Nat.le_refl _)]
        simp [List.replicate_succ]
      have hS2 : ∀ a ∈ S2, m2.get a = m.get a := fun a ha => by
        have har : a ≠ r := fun e => hrS.2 (e ▸ ha)
        rw [f2, if_neg har, e5 a (hlive a (h4.live a ha))]
      obtain ⟨rs, m3, T2, g1, g2, g3, g4, g5, g6, g7⟩ := copyChildren_spec M (n := n) (m := m2)
        (p := p) (r := r) (pre := pre ++ [some q]) (qs := qs ++ [some q']) (o := o) (o' := o') (i := i)
        (i' := i') (h4.congr hS2)
        (by rw [f2, if_neg hpr, e5 p (hlive p (by simp [hp])), hp]; simp)
        (by rw [f2, if_pos rfl, hset]) (by simp [hl]) hrS.2 hpr (by omega)
      have hT12 : ∀ a ∈ T2, m1.get a = none := fun a ha => by
        have := g4 a ha
        rw [f2] at this
        split at this
        · simp at this
        · exact this
      have hrT1 : r ∉ T1 := hlive r (by simp [hr])
      have hrT2 : r ∉ T2 := fun h => by have := g4 r h; rw [f2, if_pos rfl] at this; simp at this
      have hdis : ∀ a ∈ T1, a ∉ T2 := fun a ha hb => e2.live a ha (hT12 a hb)
      refine ⟨q' :: rs, m3, T1 ++ T2, ?_, ⟨q', rs, T1, T2, rfl, rfl, ?_, g2⟩, ?_, ?_, ?_, ?_, ?_⟩
      · rw [List.length_append] at g1
        simp only [copyChildren, hp]
        simp [e1, f1]
        exact g1
      · refine e2.congr fun a ha => ?_
        have : a ≠ r := fun e => hrT1 (e ▸ ha)
        rw [g6 a (hdis a ha) this, f2, if_neg this]
      · exact List.nodup_append.mpr ⟨e3, g3, fun a ha b hb e => hdis a ha (e ▸ hb)⟩
      · intro a ha
        rcases List.mem_append.mp ha with ha | ha
        · exact e4 a ha
        · rw [← e5 a (fun h => hdis a h ha)]
          exact hT12 a ha
      · rw [g5]; simp
      · intro a ha har
        simp only [List.mem_append, not_or] at ha
        rw [g6 a ha.2 har, f2, if_neg har, e5 a ha.1]
      · rw [g7, f3, e6]
end

end Verif
