import Verif.Lemmas.NodeHeapOps
import Verif.Lemmas.TreeUtil

/-!
# Lemmas on the application of rules to trees in memory
-/

namespace Verif
open OwnershipSpec
variable {V : Type}

/-! ## tree_replace_by_list -/

theorem moveChildren_spec {p r : Nat} {o o' : Op} {i i' : Nat} (hpr : p ≠ r) :
    ∀ {B B' A C A' C' : List (Option Nat)} {m : Mem V},
    m.get p = some (.op o (A ++ B ++ C) i) → m.get r = some (.op o' (A' ++ B' ++ C') i') →
    B'.length = B.length →
    ∃ m', moveChildren B.length m p A.length r A'.length = .ok m' ∧
      m'.get r = some (.op o' (A' ++ B ++ C') i') ∧ (∀ a, a ≠ r → m'.get a = m.get a) ∧
      m'.vars = m.vars
  | [], B', A, C, A', C', m, hp, hr, hl => by
    have : B' = [] := List.length_eq_zero_iff.mp hl
    subst this
    exact ⟨m, rfl, hr, fun _ _ => rfl, rfl⟩
  | b :: B, [], A, C, A', C', m, hp, hr, hl => by simp at hl
  | b :: B, b' :: B', A, C, A', C', m, hp, hr, hl => by
    have hc : m.child p A.length = .ok b := Mem.child_ok hp (by simp)
    obtain ⟨m1, e1, e2, e3⟩ := Mem.setChild_ok hr (k := A'.length) (by simp) b
    have hset : (A' ++ b' :: B' ++ C').set A'.length b = (A' ++ [b]) ++ B' ++ C' := by
      rw [List.append_assoc, List.set_append_right _ _ (Nat.le_refl _)]
      simp
    rw [hset] at e2
    obtain ⟨m2, f1, f2, f3, f4⟩ := moveChildren_spec (B := B) (B' := B') (A := A ++ [b]) (C := C)
      (A' := A' ++ [b]) (C' := C') (m := m1) (o := o) (i := i) hpr
      (by rw [e2, if_neg hpr, hp]; simp) (by rw [e2, if_pos rfl]) (by simpa using hl)
    refine ⟨m2, ?_, by simpa using f2, fun a ha => by rw [f3 a ha, e2, if_neg ha], f4.trans e3⟩
    simp only [List.length_append, List.length_singleton] at f1
    simp [moveChildren, hc, e1, f1]

/-- In the memory `m0` the places `ss` hold the trees `us`; all nodes involved are in `U`,
all variables in `W`. -/
def Mapped (m0 : Mem V) (U W : Nat → Prop) : List Slot → List (Tree V) → Prop
  | [], us => us = []
  | s :: ss, us => ∃ u us' x X, us = u :: us' ∧ m0.deref s = .ok (some x) ∧ Holds m0.get u x X ∧
      (∀ a ∈ X, U a) ∧ (∀ a k, s = .child a k → U a) ∧ (∀ y, s = .var y → W y) ∧ Mapped m0 U W ss us'

theorem Mapped.length {m0 : Mem V} {U W : Nat → Prop} : ∀ {ss : List Slot} {us : List (Tree V)},
    Mapped m0 U W ss us → ss.length = us.length
  | [], us, h => by simp only [Mapped] at h; simp [h]
  | s :: ss, _, ⟨u, us', x, X, h1, _, _, _, _, _, h⟩ => by simp [h1, h.length]

/-- What is read from a place that stays as it is. -/
theorem deref_safe {m0 m : Mem V} {U W : Nat → Prop} (same : ∀ a, U a → m.get a = m0.get a)
    (vars : ∀ y, W y → m.vars y = m0.vars y) {s : Slot} {x : Option Nat} (h : m0.deref s = .ok x)
    (h1 : ∀ a k, s = .child a k → U a) (h2 : ∀ y, s = .var y → W y) : m.deref s = .ok x := by
  cases s with
  | var y => simpa [Mem.deref, vars y (h2 y rfl)] using h
  | child a k => simpa [Mem.deref, Mem.child, same a (h1 a k rfl)] using h

theorem copyInto_spec (M : Malloc V) {m0 : Mem V} {U W : Nat → Prop} {r : Nat} {o : Op} {i fuel : Nat}
    (live : ∀ a, U a → m0.get a ≠ none) (hr : ¬ U r) : ∀ {ss : List Slot} {us : List (Tree V)}
    {A C : List (Option Nat)} {m : Mem V},
    (∀ a, U a → m.get a = m0.get a) → (∀ y, W y → m.vars y = m0.vars y) → Mapped m0 U W ss us →
    m.get r = some (.op o (A ++ List.replicate us.length none ++ C) i) →
    (∀ u ∈ us, calls u ≤ fuel) →
    ∃ m' qs T, copyInto M fuel ss m r A.length = .ok m' ∧ HoldsAll m'.get us qs T ∧ T.Nodup ∧
      (∀ a ∈ T, m.get a = none) ∧ m'.get r = some (.op o (A ++ qs.map some ++ C) i) ∧
      (∀ a, a ∉ T → a ≠ r → m'.get a = m.get a) ∧ m'.vars = m.vars
  | [], us, A, C, m, same, vars, h, hm, hf => by
    simp only [Mapped] at h
    subst h
    exact ⟨m, [], [], rfl, ⟨rfl, rfl⟩, by simp, by simp, by simpa using hm, by simp, rfl⟩
  | s :: ss, _, A, C, m, same, vars, ⟨u, us, x, X, rfl, h2, h3, h4, h5, h6, h7⟩, hm, hf => by
    have hd : m.deref s = .ok (some x) := deref_safe same vars h2 h5 h6
    obtain ⟨q, m1, T1, e1, e2, e3, e4, e5, e6⟩ := copyTree_spec M
      (h3.congr fun a ha => same a (h4 a ha)) (fuel := fuel) (hf u (by simp))
    have hlive : ∀ a, m.get a ≠ none → a ∉ T1 := fun a ha h => ha (e4 a h)
    have hr1 : m1.get r = some (.op o (A ++ List.replicate (u :: us).length none ++ C) i) := by
      rw [e5 r (hlive r (by simp [hm])), hm]
    obtain ⟨m2, f1, f2, f3⟩ := Mem.setChild_ok hr1 (k := A.length) (by simp; omega) (some q)
    have hset : (A ++ List.replicate (u :: us).length (none : Option Nat) ++ C).set A.length (some q) =
        (A ++ [some q]) ++ List.replicate us.length none ++ C := by
      rw [List.append_assoc, List.set_append_right _ _ (Nat.le_refl _)]
      simp [List.replicate_succ]
    rw [hset] at f2
    have hU : ∀ a, U a → a ≠ r ∧ a ∉ T1 := fun a ha =>
      ⟨fun e => hr (e ▸ ha), hlive a (by rw [same a ha]; exact live a ha)⟩
    obtain ⟨m3, qs, T2, g1, g2, g3, g4, g5, g6, g7⟩ := copyInto_spec M (ss := ss) (us := us)
      (A := A ++ [some q]) (C := C) (m := m2) (i := i) (o := o) (r := r) (fuel := fuel) live hr
      (fun a ha => by rw [f2, if_neg (hU a ha).1, e5 a (hU a ha).2, same a ha])
      (fun y hy => by rw [f3, e6, vars y hy]) h7 (by rw [f2, if_pos rfl])
      (fun v hv => hf v (by simp [hv]))
    have hT12 : ∀ a ∈ T2, m1.get a = none := fun a ha => by
      have := g4 a ha
      rw [f2] at this
      split at this
      · simp at this
      · exact this
    have hrT1 : r ∉ T1 := hlive r (by simp [hm])
    have hdis : ∀ a ∈ T1, a ∉ T2 := fun a ha hb => e2.live a ha (hT12 a hb)
    refine ⟨m3, q :: qs, T1 ++ T2, ?_, ⟨q, qs, T1, T2, rfl, rfl, ?_, g2⟩, ?_, ?_, ?_, ?_, ?_⟩
    · simp only [List.length_append, List.length_singleton] at g1
      simp [copyInto, hd, e1, f1, g1]
    · refine e2.congr fun a ha => ?_
      have : a ≠ r := fun e => hrT1 (e ▸ ha)
      rw [g6 a (hdis a ha) this, f2, if_neg this]
    · exact List.nodup_append.mpr ⟨e3, g3, fun a ha b hb e => hdis a ha (e ▸ hb)⟩
    · intro a ha
      rcases List.mem_append.mp ha with ha | ha
      · exact e4 a ha
      · rw [← e5 a (fun h => hdis a h ha)]
        exact hT12 a ha
    · rw [g5]; simp
    · intro a ha har
      simp only [List.mem_append, not_or] at ha
      rw [g6 a ha.2 har, f2, if_neg har, e5 a ha.1]
    · rw [g7, f3, e6]

/-- The replacement of a child by a list whose length is not one. -/
theorem replaceByList_many (M : Malloc V) {m0 m : Mem V} {U W : Nat → Prop} {parent : Slot} {o : Op}
    {ds ts us : List (Tree V)} {c : Tree V} {i fuel : Nat} {S : List Nat} {ss : List Slot}
    (h : At m parent (.op o (ds ++ c :: ts) i) S) (hs : Safe m0 U W m parent S)
    (hm : Mapped m0 U W ss us) (hc : calls c ≤ fuel) (hu : ∀ u ∈ us, calls u ≤ fuel)
    (h1 : ∀ s, ss ≠ [s]) :
    ∃ m' T, replaceByList M fuel m parent ds.length ss = .ok m' ∧
      Trade m parent S (.op o (ds ++ us ++ ts) i) T m' := by
  have ho := fun a k hs => h.owner (a := a) (k := k) hs
  have hlen := hm.length
  obtain ⟨p, h2, ⟨ps, R, h3, h4, rfl⟩, h5, h6⟩ := h
  obtain ⟨p1, p2, R1, R2, rfl, rfl, h7, q, p3, Rc, R3, rfl, rfl, h8, h9⟩ := h4.split
  have hl1 := h7.length
  have hl3 := h9.length
  rw [List.nodup_cons, List.nodup_append, List.nodup_append] at h5
  obtain ⟨hp, hn1, ⟨hnc, hn3, hd3⟩, hd1⟩ := h5
  simp only [List.mem_append, not_or] at hp hd1
  have hchild : m.child p ds.length = .ok (some q) := by
    rw [← hl1]; exact Mem.child_ok h3 (by simp)
  obtain ⟨m1, e1, e2, e3⟩ := freeTree_spec (fuel := fuel) h8 hnc hc
  have hp1 : m1.get p = some (.op o ((p1 ++ q :: p3).map some) i) := by rw [e2, if_neg hp.2.1, h3]
  generalize hcs : ((p1 ++ q :: p3).map some : List (Option Nat)) = cs at *
  have hcl : cs.length = p1.length + 1 + p3.length := by rw [← hcs]; simp; omega
  generalize hA : m1.alloc M (.op o (List.replicate (cs.length - 1 + ss.length) none) i) = A
  have hfr : m1.get A.1 = none := by rw [← hA]; exact Mem.alloc_fresh ..
  have hg : ∀ a, A.2.get a = if a = A.1 then
      some (.op o (List.replicate (cs.length - 1 + ss.length) none) i) else m1.get a := by
    intro a; rw [← hA]; exact Mem.get_alloc ..
  have hvA : A.2.vars = m1.vars := by rw [← hA]; rfl
  have hpA : p ≠ A.1 := fun e => by rw [← e, hp1] at hfr; simp at hfr
  -- the children before
  obtain ⟨m2, a1, a2, a3, a4⟩ := moveChildren_spec (p := p) (r := A.1) (o := o) (o' := o) (i := i) (i' := i) hpA
    (A := []) (B := p1.map some) (C := (q :: p3).map some) (A' := [])
    (B' := List.replicate p1.length none) (C' := List.replicate (us.length + p3.length) none) (m := A.2)
    (by rw [hg, if_neg hpA, hp1, ← hcs]; simp)
    (by
      have : cs.length - 1 + ss.length = p1.length + (us.length + p3.length) := by omega
      rw [hg, if_pos rfl, this]; simp)
    (by simp)
  simp only [List.length_map, List.length_nil, hl1, List.nil_append] at a1 a2
  -- what is protected
  have hUS : ∀ a, U a → m2.get a = m0.get a := by
    intro a ha
    have hx : a ≠ A.1 := fun e => by
      rw [← e, e2, if_neg (fun h' => hs.apart a (by simp [h']) ha), hs.same a ha] at hfr
      exact hs.live a ha hfr
    rw [a3 a hx, hg, if_neg hx, e2, if_neg (fun h' => hs.apart a (by simp [h']) ha), hs.same a ha]
  have hUA : ¬ U A.1 := fun ha => by
    rw [e2, if_neg (fun h' => hs.apart _ (by simp [h']) ha), hs.same _ ha] at hfr
    exact hs.live _ ha hfr
  -- the list
  obtain ⟨m3, qs, T, b1, b2, b3, b4, b5, b6, b7⟩ := copyInto_spec M (m := m2) (A := p1.map some)
    (C := List.replicate p3.length none) (o := o) (i := i) (fuel := fuel) hs.live hUA hUS
    (fun y hy => by rw [a4, hvA, e3, hs.vars y hy]) hm
    (by rw [a2]; simp) hu
  simp only [List.length_map, hl1] at b1
  have hT : ∀ a ∈ T, a ≠ A.1 ∧ m1.get a = none := by
    intro a ha
    have h' := b4 a ha
    have hx : a ≠ A.1 := fun e => by rw [e, a2] at h'; simp at h'
    rw [a3 a hx, hg, if_neg hx] at h'
    exact ⟨hx, h'⟩
  have hpT : p ∉ T := fun h' => by have := (hT p h').2; rw [hp1] at this; simp at this
  -- the children after
  obtain ⟨m4, c1, c2, c3, c4⟩ := moveChildren_spec (p := p) (r := A.1) (o := o) (o' := o) (i := i) (i' := i) hpA
    (A := (p1 ++ [q]).map some) (B := p3.map some) (C := []) (A' := p1.map some ++ qs.map some)
    (B' := List.replicate p3.length none) (C' := []) (m := m3)
    (by rw [b6 p hpT hpA, a3 p hpA, hg, if_neg hpA, hp1, ← hcs]; simp) (by rw [b5]; simp) (by simp)
  have hq := b2.length
  simp only [List.length_map, List.length_append, List.length_singleton, hl1, hq, List.append_nil] at c1 c2
  have hp4 : m4.get p = some (.op o cs i) := by
    rw [c3 p hpA, b6 p hpT hpA, a3 p hpA, hg, if_neg hpA, hp1]
  obtain ⟨m5, d1, d2, d3⟩ := Mem.free_ok hp4
  have hm5 : ∀ a, a ≠ A.1 → a ∉ T → m5.get a = if a = p then none else m1.get a := by
    intro a ha hb
    rw [d2]
    split
    · rfl
    · rw [c3 a ha, b6 a hb ha, a3 a ha, hg, if_neg ha]
  have hv5 : m5.vars = m.vars := by rw [d3, c4, b7, a4, hvA, e3]
  have hnone : ∀ a, m1.get a = none → a ∈ Rc ∨ m.get a = none := by
    intro a ha
    rw [e2] at ha
    split at ha
    · exact .inl (by assumption)
    · exact .inr ha
  have hown : ∀ a k, parent = .child a k → m5.get a = m.get a ∧ a ≠ A.1 ∧ a ∉ T := by
    intro a k e
    obtain ⟨o1, o2⟩ := ho a k e
    simp only [List.mem_cons, List.mem_append, not_or] at o2
    have o3 : m1.get a = m.get a := by rw [e2, if_neg o2.2.2.1]
    have x1 : a ≠ A.1 := fun e => by rw [← e, o3] at hfr; exact o1 hfr
    have x2 : a ∉ T := fun h' => by have := (hT a h').2; rw [o3] at this; exact o1 this
    exact ⟨by rw [hm5 a x1 x2, if_neg o2.1, o3], x1, x2⟩
  have hd5 : m5.deref parent = .ok (some p) := Mem.deref_congr h2 hv5 fun a k e => (hown a k e).1
  obtain ⟨m6, f1, f2, f3⟩ := Mem.assign_ok hd5 (some A.1)
  have hm6 : ∀ a, (∀ b k, parent = .child b k → b ≠ a) → m6.get a = m5.get a := fun a ha => by
    rw [f2]; exact putSlot_other ha
  -- the part that stays
  have keep : ∀ a, (a ∈ R1 ∨ a ∈ R3) → a ≠ A.1 ∧ a ∉ T ∧ m6.get a = m.get a := by
    intro a ha
    have l : m.get a ≠ none := ha.elim (h7.live a) (h9.live a)
    have nc : a ∉ Rc := by
      rcases ha with ha | ha
      · exact fun h' => hd1 a ha a (.inl h') rfl
      · exact fun h' => hd3 a h' a ha rfl
    have np : a ≠ p := by rintro rfl; exact ha.elim hp.1 hp.2.2
    have o3 : m1.get a = m.get a := by rw [e2, if_neg nc]
    have x1 : a ≠ A.1 := fun e => by rw [← e, o3] at hfr; exact l hfr
    have x2 : a ∉ T := fun h' => by have := (hT a h').2; rw [o3] at this; exact l this
    refine ⟨x1, x2, ?_⟩
    rw [hm6 a (fun b k e e' => (ho b k e).2 (by rcases ha with ha | ha <;> simp [e', ha])), hm5 a x1 x2,
      if_neg np, o3]
  have newA : m6.get A.1 = some (.op o ((p1 ++ qs ++ p3).map some) i) := by
    rw [hm6 A.1 (fun b k e e' => (hown b k e).2.1 e'), d2, if_neg (Ne.symm hpA), c2]; simp
  have newT : ∀ a ∈ T, m6.get a = m3.get a := by
    intro a ha
    have np : a ≠ p := fun e => hpT (e ▸ ha)
    rw [hm6 a (fun b k e e' => (hown b k e).2.2 (e' ▸ ha)), d2, if_neg np, c3 a (hT a ha).1]
  refine ⟨m6, A.1 :: (R1 ++ T ++ R3), ?_, A.1, ⟨⟨p1 ++ qs ++ p3, R1 ++ T ++ R3, newA, ?_, rfl⟩,
    ?_, ?_, ?_, ?_⟩, by rw [f3, hv5]⟩
  · have hlen3 : cs.length - ds.length - 1 = p3.length := by omega
    simp only [hlen, ← hA] at b1 c1
    have hA' := hA
    rw [hlen] at hA'
    have : replaceByList M fuel m parent ds.length ss = (do
        let c ← m.child p ds.length
        let m1 ← freeTree fuel m c
        match m1.get p with
        | some (.op o cs i) => do
          let a := m1.alloc M (.op o (List.replicate (cs.length - 1 + ss.length) none) i)
          let m2 ← moveChildren ds.length a.2 p 0 a.1 0
          let m3 ← copyInto M fuel ss m2 a.1 ds.length
          let m4 ← moveChildren (cs.length - ds.length - 1) m3 p (ds.length + 1) a.1 (ds.length + ss.length)
          let m5 ← m4.free p
          m5.assign parent (some a.1)
        | _ => .ub) := by
      simp only [replaceByList, h2, Out.bind_ok]
      match ss, h1 with
      | [], _ => rfl
      | [s], h1 => exact absurd rfl (h1 s)
      | s :: s' :: ss, _ => rfl
    rw [this]
    simp only [hchild, e1, hp1, Out.bind_ok, hlen3, hlen, hA', a1]
    simp only [hlen, hA'] at b1 c1
    simp only [b1, c1, d1, f1, Out.bind_ok]
  · exact ((h7.congr fun a ha => (keep a (.inl ha)).2.2).append (b2.congr newT)).append
      (h9.congr fun a ha => (keep a (.inr ha)).2.2)
  · simp only [List.nodup_cons, List.nodup_append, List.mem_append, not_or]
    refine ⟨⟨⟨fun h' => (keep _ (.inl h')).1 rfl, fun h' => (hT _ h').1 rfl⟩,
      fun h' => (keep _ (.inr h')).1 rfl⟩, ⟨hn1, b3, fun a ha b hb e => (keep a (.inl ha)).2.1 (e ▸ hb)⟩,
      hn3, ?_⟩
    rintro a (ha | ha) b hb rfl
    · exact hd1 a ha a (.inr hb) rfl
    · exact (keep a (.inr hb)).2.1 ha
  · intro a ha
    simp only [List.mem_cons, List.mem_append] at ha ⊢
    have fin : m1.get a = none → (a = p ∨ a ∈ R1 ∨ a ∈ Rc ∨ a ∈ R3) ∨
        putSlot m.get parent (some A.1) a = none := fun h' => by
      rcases hnone a h' with h'' | h''
      · exact .inl (.inr (.inr (.inl h'')))
      · exact .inr (putSlot_none.mpr h'')
    rcases ha with h' | (h' | h') | h'
    · exact fin (h' ▸ hfr)
    · exact .inl (.inr (.inl h'))
    · exact fin (hT a h').2
    · exact .inl (.inr (.inr (.inr h')))
  · intro a ha hb
    simp only [List.mem_cons, List.mem_append, not_or] at ha hb
    rw [f2, putSlot_none, hm5 a hb.1 hb.2.1.2]
    rcases ha with h' | h' | h' | h'
    · rw [if_pos h']
    · exact absurd h' hb.2.1.1
    · split
      · rfl
      · rw [e2, if_pos h']
    · exact absurd h' hb.2.2
  · intro a ha hb
    simp only [List.mem_cons, List.mem_append, not_or] at ha hb
    rw [f2]
    exact putSlot_congr (by rw [hm5 a hb.1 hb.2.1.2, if_neg ha.1, e2, if_neg ha.2.2.1])

theorem replaceByList_spec (M : Malloc V) {m0 m : Mem V} {U W : Nat → Prop} {parent : Slot} {o : Op}
    {ds ts us : List (Tree V)} {c : Tree V} {i fuel : Nat} {S : List Nat} {ss : List Slot}
    (h : At m parent (.op o (ds ++ c :: ts) i) S) (hs : Safe m0 U W m parent S)
    (hm : Mapped m0 U W ss us) (hc : calls c ≤ fuel) (hu : ∀ u ∈ us, calls u ≤ fuel) :
    ∃ m' T, replaceByList M fuel m parent ds.length ss = .ok m' ∧
      Trade m parent S (.op o (ds ++ us ++ ts) i) T m' := by
  by_cases h1 : ∃ s, ss = [s]
  · obtain ⟨s, rfl⟩ := h1
    obtain ⟨u, us', x, X, rfl, h2, h3, h4, h5, h6, h7⟩ := hm
    simp only [Mapped] at h7
    subst h7
    obtain ⟨p, cs, S1, g1, g2, g3, g4, g5, g6⟩ := h.child
    obtain ⟨a, mA, m', T, e1, e2, e3⟩ := copy_replace M g4
      (h3.congr fun a ha => hs.same a (h4 a ha)) (fuel := fuel) (fuel' := fuel) (hu u (by simp)) hc
    obtain ⟨T', e4⟩ := g6 _ _ _ e3
    refine ⟨m', T', ?_, by simpa using e4⟩
    simp [replaceByList, g1, deref_safe hs.same hs.vars h2 h5 h6, e1, e2]
  · exact replaceByList_many M h hs hm hc hu fun s e => h1 ⟨s, e⟩

/-! ## transform_by_matching -/

theorem treeCopy_map (ts : List (Tree V)) : ts.map treeCopy = ts := by
  induction ts with
  | nil => rfl
  | cons t ts ih => rw [List.map_cons, ih, treeCopy_eq]

mutual
theorem transformTree_op (M : Malloc V) {m0 : Mem V} {U W : Nat → Prop} {sm : SlotMatching}
    {mt : Matching V} {B : Nat} (hm : ∀ id < maxMappedVars, Mapped m0 U W (sm id) ((mt id).getD []))
    (hB : ∀ id < maxMappedVars, ∀ u ∈ (mt id).getD [], calls u ≤ B) :
    ∀ {t : Tree V} {m : Mem V} {slot : Slot} {S : List Nat} {n : Nat} {o : Op} {cs cs' : List (Tree V)}
      {i : Nat}, t = .op o cs i → At m slot t S → Safe m0 U W m slot S → transformNodes mt cs = .ok cs' →
    calls t + B ≤ n →
    ∃ m' T, transformChildren M sm n m slot 0 = .ok m' ∧ Trade m slot S (.op o cs' i) T m'
  | .op o cs i, m, slot, S, n, _, _, cs', _, rfl, h, hs, ht, hn => by
    have := transformChildren_spec M hm hB (ts := cs) (ds := []) (n := n) (by simpa using h) hs ht
      (by simp only [calls] at hn; omega)
    simpa using this
theorem transformChildren_spec (M : Malloc V) {m0 : Mem V} {U W : Nat → Prop} {sm : SlotMatching}
    {mt : Matching V} {B : Nat} (hm : ∀ id < maxMappedVars, Mapped m0 U W (sm id) ((mt id).getD []))
    (hB : ∀ id < maxMappedVars, ∀ u ∈ (mt id).getD [], calls u ≤ B) :
    ∀ {ts ds ts' : List (Tree V)} {m : Mem V} {parent : Slot} {S : List Nat} {n : Nat} {o : Op} {i : Nat},
    At m parent (.op o (ds ++ ts) i) S → Safe m0 U W m parent S → transformNodes mt ts = .ok ts' →
    callsAll ts + B ≤ n →
    ∃ m' T, transformChildren M sm n m parent ds.length = .ok m' ∧
      Trade m parent S (.op o (ds ++ ts') i) T m'
  | [], ds, ts', m, parent, S, n, o, i, h, hs, ht, hn => by
    cases n with
    | zero => simp [callsAll] at hn
    | succ n =>
      simp only [transformNodes, Res.ok.injEq] at ht
      subst ht
      refine ⟨m, S, ?_, Trade.refl h⟩
      obtain ⟨p, h1, ⟨ps, T, h2, h3, _⟩, _⟩ := h
      have hl := h3.length
      simp only [List.append_nil] at hl
      simp [transformChildren, h1, h2, hl]
  | c :: ts, ds, ts', m, parent, S, n, o, i, h, hs, ht, hn => by
    cases n with
    | zero => simp [callsAll] at hn
    | succ n =>
      simp only [callsAll] at hn
      obtain ⟨p, cs, S1, h1, h2, h3, h4, h5, h6⟩ := h.child
      obtain ⟨_, e, hp, _⟩ := h.root h1
      cases e
      obtain ⟨q, g1, g2, _⟩ := id h4
      have hq : cs[ds.length]? = some (some q) := by
        obtain ⟨o1, cs1, i1, x1, x2⟩ := Mem.deref_child g1
        rw [h2] at x1
        cases x1
        exact x2
      simp only [transformNodes] at ht
      cases c with
      | const v k =>
        simp only [transformNode] at ht
        cases hts : transformNodes mt ts with
        | ok us =>
          rw [hts] at ht
          cases ht
          obtain ⟨m', T, e1, e2⟩ := transformChildren_spec M hm hB (ts := ts) (ds := ds ++ [.const v k])
            (n := n) (by simpa using h) hs hts (by omega)
          refine ⟨m', T, ?_, by simpa using e2⟩
          simp only [List.length_append, List.length_singleton] at e1
          simp [transformChildren, h1, h2, hq, Mem.load, g2.1, e1]
        | defect => rw [hts] at ht; cases ht
        | ub => rw [hts] at ht; cases ht
      | var x id k =>
        simp only [transformNode] at ht
        by_cases hid : id < maxMappedVars
        · simp only [Matching.nodes, hid, if_true] at ht
          cases hts : transformNodes mt ts with
          | ok us =>
            rw [hts] at ht
            cases ht
            obtain ⟨m1, T1, e1, e2⟩ := replaceByList_spec M (fuel := n) h hs (hm id hid)
              (by simp only [calls] at hn ⊢; omega) (fun u hu => by have := hB id hid u hu; omega)
            have hlen := (hm id hid).length
            obtain ⟨m', T, f1, f2⟩ := transformChildren_spec M hm hB (ts := ts)
              (ds := ds ++ (mt id).getD []) (n := n) (e2.at h) (hs.trade e2) hts (by omega)
            refine ⟨m', T, ?_, ?_⟩
            · simp only [List.length_append] at f1
              simp [transformChildren, h1, h2, hq, Mem.load, g2.1, hid, e1, hlen, f1]
            · have := e2.trans h f2
              simpa [treeCopy_map] using this
          | defect => rw [hts] at ht; cases ht
          | ub => rw [hts] at ht; cases ht
        · simp only [Matching.nodes, hid, if_false] at ht
          cases ht
      | op o' cs1 k =>
        simp only [transformNode] at ht
        cases htc : transformNodes mt cs1 with
        | ok cs2 =>
          rw [htc] at ht
          cases hts : transformNodes mt ts with
          | ok us =>
            rw [hts] at ht
            cases ht
            obtain ⟨m1, T1, e1, e2⟩ := transformTree_op M hm hB (n := n) (t := .op o' cs1 k) rfl h4
              (hs.child hp h5) htc (by omega)
            obtain ⟨T1', e3⟩ := h6 _ _ _ e2
            obtain ⟨m', T, f1, f2⟩ := transformChildren_spec M hm hB (ts := ts)
              (ds := ds ++ [.op o' cs2 k]) (n := n) (by simpa using e3.at h) (hs.trade e3) hts (by omega)
            obtain ⟨ps, _, g3, _⟩ := g2
            refine ⟨m', T, ?_, ?_⟩
            · simp only [List.length_append, List.length_singleton] at f1
              simp [transformChildren, h1, h2, hq, Mem.load, g3, e1, f1]
            · have := e3.trans h f2
              simpa using this
          | defect => rw [hts] at ht; cases ht
          | ub => rw [hts] at ht; cases ht
        | defect => rw [htc] at ht; cases ht
        | ub => rw [htc] at ht; cases ht
end

theorem transformTree_spec (M : Malloc V) {m0 : Mem V} {U W : Nat → Prop} {sm : SlotMatching}
    {mt : Matching V} {B : Nat} (hm : ∀ id < maxMappedVars, Mapped m0 U W (sm id) ((mt id).getD []))
    (hB : ∀ id < maxMappedVars, ∀ u ∈ (mt id).getD [], calls u ≤ B) {t t' : Tree V} {m : Mem V}
    {slot : Slot} {S : List Nat} {n : Nat} (h : At m slot t S) (hs : Safe m0 U W m slot S)
    (ht : transformByMatching mt t = .ok t') (hn : calls t + B ≤ n) :
    ∃ m' T, transformTree M sm n m slot = .ok m' ∧ Trade m slot S t' T m' := by
  obtain ⟨p, g1, g2, _⟩ := id h
  cases t with
  | const v i =>
    simp only [transformByMatching, Res.ok.injEq] at ht
    subst ht
    exact ⟨m, S, by simp [transformTree, g1, Mem.load, g2.1], Trade.refl h⟩
  | var x id i =>
    simp only [transformByMatching] at ht
    by_cases hid : id < maxMappedVars
    · simp only [Matching.nodes, hid, if_true] at ht
      have hmap := hm id hid
      have hb := hB id hid
      generalize (mt id).getD [] = l at ht hmap hb
      match l, ht with
      | [u], ht =>
        simp only [treeCopy_eq] at ht
        cases ht
        generalize hsm : sm id = ss at hmap
        match ss, hmap with
        | [s], ⟨u', us', y, X, e, h2, h3, h4, h5, h6, h7⟩ =>
          cases e
          obtain ⟨a, mA, m', T, e1, e2, e3⟩ := copy_replace M h
            (h3.congr fun a ha => hs.same a (h4 a ha)) (fuel := n) (fuel' := n)
            (by have := hb t' (by simp); omega) (by omega)
          refine ⟨m', T, ?_, e3⟩
          simp [transformTree, g1, Mem.load, g2.1, hid, hsm, deref_safe hs.same hs.vars h2 h5 h6, e1, e2]
        | [], hmap => simp [Mapped] at hmap
        | s :: s' :: ss, ⟨u', us', y, X, e, h2, h3, h4, h5, h6, h7⟩ =>
          cases e
          have := h7.length
          simp at this
      | [], ht => cases ht
      | _ :: _ :: _, ht => cases ht
    · simp only [Matching.nodes, hid, if_false] at ht
      cases ht
  | op o cs i =>
    simp only [transformByMatching] at ht
    cases hts : transformNodes mt cs with
    | ok us =>
      rw [hts] at ht
      cases ht
      obtain ⟨m', T, e1, e2⟩ := transformTree_op M hm hB (n := n) (t := .op o cs i) rfl h hs hts hn
      obtain ⟨ps, _, g3, _⟩ := g2
      exact ⟨m', T, by simp [transformTree, g1, Mem.load, g3, e1], e2⟩
    | defect => rw [hts] at ht; cases ht
    | ub => rw [hts] at ht; cases ht

/-! ## apply_rule -/

/-- The place of a node inside a tree. -/
theorem OwnershipSpec.At.path {m : Mem V} : ∀ {path : Path} {t s : Tree V} {slot sl : Slot} {S : List Nat},
    At m slot t S → t.deref path = some s → PlaceOf m slot path sl →
    ∃ S1, At m sl s S1 ∧ (∀ a ∈ S1, a ∈ S) ∧ (sl = slot ∨ ∃ a k, sl = .child a k ∧ a ∈ S) ∧
      ∀ u T m', Trade m sl S1 u T m' → ∃ T', Trade m slot S (t.replaceAt path u) T' m'
  | [], t, s, slot, sl, S, h, hd, hp => by
    simp only [PlaceOf] at hp
    subst hp
    have : t = s := by simpa [Tree.deref] using hd
    subst this
    exact ⟨S, h, fun _ h => h, .inl rfl, fun u T m' e => ⟨T, by simpa [Tree.replaceAt] using e⟩⟩
  | k :: path, .op o cs i, s, slot, sl, S, h, hd, hp => by
    simp only [Tree.deref] at hd
    cases hk : cs[k]? with
    | none => rw [hk] at hd; simp at hd
    | some c =>
      rw [hk] at hd
      obtain ⟨hlt, hc⟩ := List.getElem?_eq_some_iff.mp hk
      have hsplit : cs = cs.take k ++ c :: cs.drop (k + 1) := by
        rw [← hc, List.getElem_cons_drop, List.take_append_drop]
      have hlen : (cs.take k).length = k := by simp; omega
      have h' := h
      rw [hsplit] at h'
      obtain ⟨p, ch, S1, h1, h2, h3, h4, h5, h6⟩ := h'.child
      rw [hlen] at h4 h6
      obtain ⟨q, hq, hp⟩ := hp
      rw [h1] at hq
      cases hq
      obtain ⟨_, e, hpS, _⟩ := h.root h1
      cases e
      obtain ⟨S2, g1, g2, g3, g4⟩ := At.path h4 hd hp
      refine ⟨S2, g1, fun a ha => h5 a (g2 a ha), ?_, fun u T m' e => ?_⟩
      · rcases g3 with rfl | ⟨a, j, e, ha⟩
        · exact .inr ⟨p, k, rfl, hpS⟩
        · exact .inr ⟨a, j, e, h5 a ha⟩
      · obtain ⟨T1, e1⟩ := g4 u T m' e
        obtain ⟨T2, e2⟩ := h6 _ _ _ e1
        refine ⟨T2, ?_⟩
        have hs : cs.set k (c.replaceAt path u) =
            cs.take k ++ c.replaceAt path u :: cs.drop (k + 1) := by
          conv => lhs; rw [hsplit]
          rw [List.set_append_right _ _ (by omega)]
          simp [hlen]
        simpa [Tree.replaceAt, hk, hs] using e2
  | _ :: _, .const v i, s, slot, sl, S, h, hd, hp => by simp [Tree.deref] at hd
  | _ :: _, .var x k i, s, slot, sl, S, h, hd, hp => by simp [Tree.deref] at hd

theorem rewriteAt_spec (M : Malloc V) {m : Mem V} {root matched : Slot} {t s after u : Tree V}
    {S R : List Nat} {path : Path} {r x n B : Nat} {sm : SlotMatching} {mt : Matching V}
    (h : At m root t S) (hx : root ≠ .var x) (hd : t.deref path = some s)
    (hp : PlaceOf m root path matched) (ha : Holds m.get after r R)
    (hm : ∀ id < maxMappedVars, Mapped m (fun a => m.get a ≠ none) (fun y => y ≠ x) (sm id)
      ((mt id).getD [])) (hB : ∀ id < maxMappedVars, ∀ u ∈ (mt id).getD [], calls u ≤ B)
    (hu : transformByMatching mt (setTokAll s.tok after) = .ok u)
    (hn : calls after + calls (setTokAll s.tok after) + calls s + B ≤ n) :
    ∃ v m' T, rewriteAt M n m x (some r) matched sm = .ok m' ∧
      Trade (m.setVar x v) root S (t.replaceAt path u) T m' := by
  obtain ⟨q, mA, T0, a1, a2, a3, a4, a5, a6⟩ := copyTree_spec M ha (fuel := n) (by omega)
  obtain ⟨S1, b1, b2, b3, _⟩ := h.path hd hp
  have hmx : matched ≠ .var x := by
    rcases b3 with rfl | ⟨a, k, rfl, _⟩
    · exact hx
    · simp
  generalize hm1 : mA.setVar x (some q) = m1
  have g1 : m1.get = mA.get := by rw [← hm1]; rfl
  have v1 : ∀ y, m1.vars y = if y = x then some q else m.vars y := by
    intro y; rw [← hm1, ← a6]; rfl
  have hlive : ∀ a, m.get a ≠ none → a ∉ T0 := fun a ha hT => ha (a4 a hT)
  have hAt1 : At m1 (.var x) after T0 :=
    ⟨q, by simp [Mem.deref, v1], by rw [g1]; exact a2, a3, fun a k e => by simp at e⟩
  have hsafe1 : Safe m (fun a => m.get a ≠ none) (fun y => y ≠ x) m1 (.var x) T0 :=
    ⟨fun _ h => h, fun a ha => by rw [g1, a5 a (hlive a ha)], fun y hy => by rw [v1, if_neg hy],
      fun a ha hU => hU (a4 a ha), fun a k e => by simp at e, fun y e hy => by cases e; exact hy rfl⟩
  -- the token index
  obtain ⟨p, c1, c2, c3⟩ := id b1
  have hmo : ∀ a k, matched = .child a k → m.get a ≠ none := fun a k e => (b1.owner e).1
  have d1 : m1.deref matched = .ok (some p) := deref_safe hsafe1.same hsafe1.vars c1 hmo
    (fun y e e' => hmx (e' ▸ e))
  obtain ⟨cell, k1, k2⟩ := Cell.tok_holds c2
  have hpl : m.get p ≠ none := by simp [k1]
  have l1 : m1.load (some p) = .ok cell := by
    simp [Mem.load, g1, a5 p (hlive p hpl), k1]
  have dx1 : m1.deref (.var x) = .ok (some q) := by simp [Mem.deref, v1]
  obtain ⟨m2, e1, e2, e3, e4⟩ := setToks_spec s.tok (fuel := n) (m := m1) (t := after) (p := q) (S := T0)
    (by rw [g1]; exact a2) a3 (by omega)
  have t12 : Trade m1 (.var x) T0 (setTokAll s.tok after) T0 m2 := by
    obtain ⟨s1, s2⟩ := Mem.putSlot_same dx1
    refine ⟨q, ?_, by rw [e4, s2]⟩
    rw [s1]
    exact ⟨e2, a3, fun a ha => .inl ha, fun a ha hb => absurd ha hb, fun a ha _ => e3 a ha⟩
  -- the transformation
  obtain ⟨m3, T3, f1, f2⟩ := transformTree_spec M hm hB (n := n) (t12.at hAt1) (hsafe1.trade t12) hu
    (by omega)
  have t13 := t12.trans hAt1 f2
  obtain ⟨q3, y1, y2, y3, _⟩ := t13.at hAt1
  obtain ⟨q3', z1, z2⟩ := t13
  have hq3 : m3.vars x = some q3 := by simpa [Mem.deref] using y1
  have hT3 : ∀ a ∈ T3, m.get a = none := by
    intro a ha
    rcases z1.fresh a ha with h' | h'
    · exact a4 a h'
    · by_cases hT : a ∈ T0
      · exact a4 a hT
      · simp only [putSlot] at h'
        rw [g1, a5 a hT] at h'
        exact h'
  have hm3 : ∀ a, a ∉ T3 → m3.get a = m.get a := by
    intro a ha
    by_cases hT : a ∈ T0
    · rw [z1.freed a hT ha, a4 a hT]
    · rw [z1.frame a hT ha]
      simp only [putSlot]
      rw [g1, a5 a hT]
  have hv3 : m3.vars = (m.setVar x (some q3)).vars := by
    funext y
    by_cases hy : y = x
    · rw [hy, hq3]; simp [Mem.setVar]
    · rw [z2]; simp [putVar, hy, v1, Mem.setVar]
  -- the replacement
  have hdL : ∀ (sl : Slot) (y : Option Nat), sl ≠ .var x → m.deref sl = .ok y →
      (m.setVar x (some q3)).deref sl = .ok y := by
    intro sl y hne hy
    cases sl with
    | var z =>
      have hz : z ≠ x := fun e => hne (by rw [e])
      simpa [Mem.deref, Mem.setVar, hz] using hy
    | child a k => exact hy
  have hAtL : At (m.setVar x (some q3)) root t S := by
    obtain ⟨p0, w1, w2, w3, w4⟩ := h
    exact ⟨p0, hdL _ _ hx w1, w2, w3, w4⟩
  have hpL : PlaceOf (m.setVar x (some q3)) root path matched := by
    have : ∀ (pa : Path) (sl : Slot), sl ≠ .var x → PlaceOf m sl pa matched →
        PlaceOf (m.setVar x (some q3)) sl pa matched := by
      intro pa
      induction pa with
      | nil => intro sl _ h'; exact h'
      | cons k pa ih =>
        rintro sl hsl ⟨w, w1, w2⟩
        exact ⟨w, hdL _ _ hsl w1, ih _ (by simp) w2⟩
    exact this path root hx hp
  obtain ⟨S1', i1, i2, i3, i4⟩ := hAtL.path hd hpL
  obtain ⟨m', j1, j2⟩ := replaceTree_new (fuel := n) i1 y2 y3 hT3 hm3 hv3 (by omega)
  obtain ⟨T, j3⟩ := i4 _ _ _ j2
  refine ⟨some q3, m', T, ?_, j3⟩
  have hasg : mA.assign (.var x) (some q) = .ok m1 := by rw [← hm1]; rfl
  simp only [rewriteAt, a1, hasg, d1, l1, dx1, k2, e1, f1, y1, j1, Out.bind_ok]

end Verif
