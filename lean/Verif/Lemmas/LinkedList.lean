import Verif.Spec.Chains
import Mathlib.Data.List.Basic
import Mathlib.Data.List.Induction
import Mathlib.Tactic.Set

/-!
# Lemmas on linked lists
-/

namespace Verif
variable {α : Type}

/-- Address of the first node, `nx` if there is none. -/
def headOr (L : List (Nat × α)) (nx : Option Nat) : Option Nat :=
  match L with
  | [] => nx
  | (p, _) :: _ => some p

/-- Address of the last node, `pv` if there is none. -/
def lastOr (pv : Option Nat) : List (Nat × α) → Option Nat
  | [] => pv
  | (p, _) :: L => lastOr (some p) L

@[simp] theorem headOr_append (A B : List (Nat × α)) (nx) : headOr (A ++ B) nx = headOr A (headOr B nx) := by
  cases A <;> rfl

@[simp] theorem lastOr_append (A B : List (Nat × α)) (pv) : lastOr pv (A ++ B) = lastOr (lastOr pv A) B := by
  induction A generalizing pv with
  | nil => rfl
  | cons a A ih => exact ih _

/-- The nodes `L` are linked one after the other, between `pv` and `nx`. -/
def Seg (h : Heap α) : Option Nat → List (Nat × α) → Option Nat → Prop
  | _, [], _ => True
  | pv, (p, x) :: L, nx => h p = some ⟨headOr L nx, pv, x⟩ ∧ Seg h (some p) L nx

theorem Seg.append {h : Heap α} {A B : List (Nat × α)} {pv nx : Option Nat} :
    Seg h pv (A ++ B) nx ↔ Seg h pv A (headOr B nx) ∧ Seg h (lastOr pv A) B nx := by
  induction A generalizing pv with
  | nil => simp [Seg, lastOr]
  | cons a A ih => obtain ⟨p, x⟩ := a; simp [Seg, lastOr, ih, and_assoc]

theorem Seg.congr {h h' : Heap α} {L : List (Nat × α)} {pv nx : Option Nat} (hs : Seg h pv L nx)
    (e : ∀ p ∈ L.map Prod.fst, h' p = h p) : Seg h' pv L nx := by
  induction L generalizing pv with
  | nil => trivial
  | cons a L ih =>
    obtain ⟨p, x⟩ := a
    exact ⟨by rw [e p (by simp)]; exact hs.1, ih hs.2 fun q hq => e q (by simp at hq ⊢; exact .inr hq)⟩

theorem Seg.mem {h : Heap α} {L : List (Nat × α)} {pv nx : Option Nat} (hs : Seg h pv L nx) {p : Nat}
    (hp : p ∈ L.map Prod.fst) : ∃ n, h p = some n := by
  induction L generalizing pv with
  | nil => simp at hp
  | cons a L ih =>
    obtain ⟨q, x⟩ := a
    simp only [List.map_cons, List.mem_cons] at hp
    rcases hp with rfl | hp
    · exact ⟨_, hs.1⟩
    · exact ih hs.2 hp

/-- The memory holds exactly the nodes `L`, linked in this order. -/
structure LRep (h : Heap α) (l : LList) (L : List (Nat × α)) : Prop where
  first : l.first = headOr L none
  last : l.last = lastOr none L
  count : l.count = L.length
  nodup : (L.map Prod.fst).Nodup
  seg : Seg h none L none
  only : ∀ p, p ∉ L.map Prod.fst → h p = none

theorem LRep.create : LRep (fun _ => none : Heap α) LList.create [] :=
  ⟨rfl, rfl, rfl, List.nodup_nil, trivial, fun _ _ => rfl⟩

theorem lastOr_some {A : List (Nat × α)} {pv : Option Nat} {b : Nat} (h : lastOr pv A = some b) :
    (A = [] ∧ pv = some b) ∨ ∃ A' x, A = A' ++ [(b, x)] := by
  rcases List.eq_nil_or_concat A with rfl | ⟨A', ⟨q, x⟩, rfl⟩
  · exact .inl ⟨rfl, h⟩
  · rw [List.concat_eq_append, lastOr_append] at h
    simp only [lastOr, Option.some.injEq] at h
    exact .inr ⟨A', x, by rw [List.concat_eq_append, h]⟩

theorem lastOr_none {A : List (Nat × α)} (h : lastOr none A = none) : A = [] := by
  rcases List.eq_nil_or_concat A with rfl | ⟨A', ⟨q, x⟩, rfl⟩
  · rfl
  · rw [List.concat_eq_append, lastOr_append] at h
    simp [lastOr] at h

theorem headOr_none {A : List (Nat × α)} (h : headOr A none = none) : A = [] := by
  cases A with
  | nil => rfl
  | cons a A => obtain ⟨p, x⟩ := a; simp [headOr] at h

/-- The next pointer of the last node of a segment is changed. -/
theorem Seg.setNext {h : Heap α} {A : List (Nat × α)} {b : Nat} {x : α} {pv nx : Option Nat}
    (hs : Seg h pv (A ++ [(b, x)]) nx) (hn : ((A ++ [(b, x)]).map Prod.fst).Nodup) (q : Option Nat) :
    ∃ n, h b = some n ∧ h.setNext b q = .ok (h.put b { n with next := q }) ∧
      Seg (h.put b { n with next := q }) pv (A ++ [(b, x)]) q := by
  obtain ⟨h1, h2⟩ := Seg.append.1 hs
  simp only [Seg, headOr, and_true] at h2
  refine ⟨_, h2, by simp [Heap.setNext, Heap.load, h2], Seg.append.2 ⟨h1.congr fun p hp => ?_, ?_, trivial⟩⟩
  · simp only [List.map_append, List.map_cons, List.map_nil, List.nodup_append] at hn
    have : p ≠ b := fun e => hn.2.2 p hp b (by simp) e
    simp [Heap.put, this]
  · simp [Heap.put, headOr]

/-- The previous pointer of the first node of a segment is changed. -/
theorem Seg.setPrevious {h : Heap α} {B : List (Nat × α)} {b : Nat} {x : α} {pv nx : Option Nat}
    (hs : Seg h pv ((b, x) :: B) nx) (hn : (((b, x) :: B).map Prod.fst).Nodup) (q : Option Nat) :
    ∃ n, h b = some n ∧ h.setPrevious b q = .ok (h.put b { n with previous := q }) ∧
      Seg (h.put b { n with previous := q }) q ((b, x) :: B) nx := by
  obtain ⟨h1, h2⟩ := hs
  refine ⟨_, h1, by simp [Heap.setPrevious, Heap.load, h1], by simp [Heap.put], h2.congr fun p hp => ?_⟩
  simp only [List.map_cons, List.nodup_cons] at hn
  have : p ≠ b := fun e => hn.1 (e ▸ hp)
  simp [Heap.put, this]

theorem LRep.insert {h : Heap α} {l : LList} {A B : List (Nat × α)} (hr : LRep h l (A ++ B)) (x : α) (a : Nat)
    (ha : a ∉ (A ++ B).map Prod.fst) :
    ∃ h' l', LList.insertAfter h l (lastOr none A) x a = .ok (h', l') ∧ LRep h' l' (A ++ (a, x) :: B) := by
  obtain ⟨s1, s2⟩ := Seg.append.1 hr.seg
  have hnd := hr.nodup
  rw [List.map_append, List.nodup_append] at hnd
  obtain ⟨nA, nB, nAB⟩ := hnd
  simp only [List.map_append, List.mem_append, not_or] at ha
  -- the address of the node after the new one
  have hafter : LList.nodeAfter h l (lastOr none A) = .ok (headOr B none) := by
    cases hl : lastOr none A with
    | none =>
      have := lastOr_none hl; subst this
      simpa [LList.nodeAfter] using hr.first
    | some b =>
      rcases lastOr_some hl with ⟨_, h0⟩ | ⟨A', y, rfl⟩
      · cases h0
      · have := (Seg.append.1 s1).2.1
        rw [headOr] at this
        simp [LList.nodeAfter, Heap.load, this]
  set h1 := h.put a ⟨headOr B none, lastOr none A, x⟩ with hh1
  have e1 : ∀ p, p ≠ a → h1 p = h p := fun p hp => by simp [hh1, Heap.put, hp]
  have sA : Seg h1 none A (headOr B none) := s1.congr fun p hp => e1 p fun e => ha.1 (e ▸ hp)
  have sB : Seg h1 (lastOr none A) B none := s2.congr fun p hp => e1 p fun e => ha.2 (e ▸ hp)
  have ea : h1 a = some ⟨headOr B none, lastOr none A, x⟩ := by simp [hh1, Heap.put]
  -- the node before
  obtain ⟨h2, l2, c2, eA, sA2, hB2, hf2, hlc2, hl2, hh2⟩ : ∃ (h2 : Heap α) (l2 : LList),
      LList.linkNext h1 l (some a) (lastOr none A) = .ok (h2, l2) ∧
      (h2 a = h1 a) ∧ Seg h2 none A (some a) ∧ (∀ p ∈ B.map Prod.fst, h2 p = h1 p) ∧
      l2.first = headOr A (some a) ∧ l2.count = l.count ∧ l2.last = l.last ∧
      (∀ p, p ∉ A.map Prod.fst → h2 p = h1 p) := by
    cases hl : lastOr none A with
    | none =>
      have := lastOr_none hl; subst this
      exact ⟨h1, _, rfl, rfl, trivial, fun _ _ => rfl, rfl, rfl, rfl, fun _ _ => rfl⟩
    | some b =>
      rcases lastOr_some hl with ⟨_, h0⟩ | ⟨A', y, rfl⟩
      · cases h0
      · obtain ⟨n, h3, h4, h5⟩ := sA.setNext nA (some a)
        have hba : b ∈ (A' ++ [(b, y)]).map Prod.fst := by simp
        refine ⟨_, l, by simp only [LList.linkNext, h4, Res.bind_ok, Res.pure_eq], ?_, h5, fun p hp => ?_, ?_, rfl, rfl, fun p hp => ?_⟩
        · have : a ≠ b := fun e => ha.1 (e ▸ hba)
          simp [Heap.put, this]
        · have : p ≠ b := fun e => nAB b hba p hp e.symm
          simp [Heap.put, this]
        · have := hr.first
          rw [headOr_append] at this
          rw [this]
          cases A' <;> rfl
        · have : p ≠ b := fun e => hp (e ▸ hba)
          simp [Heap.put, this]
  have sB2 : Seg h2 (lastOr none A) B none := sB.congr hB2
  -- the node after
  obtain ⟨h3, l3, c3, eA3, sA3, sB3, hf3, hc3, hl3, hh3⟩ : ∃ (h3 : Heap α) (l3 : LList),
      LList.linkPrevious h2 l2 (some a) (headOr B none) = .ok (h3, l3) ∧
      (h3 a = h2 a) ∧ Seg h3 none A (some a) ∧ Seg h3 (some a) B none ∧
      l3.first = l2.first ∧ l3.count = l.count ∧ l3.last = lastOr (some a) B ∧
      (∀ p, p ∉ B.map Prod.fst → h3 p = h2 p) := by
    cases hl : headOr B none with
    | none =>
      have := headOr_none hl; subst this
      exact ⟨h2, _, rfl, rfl, sA2, trivial, rfl, hlc2, rfl, fun _ _ => rfl⟩
    | some b =>
      cases B with
      | nil => simp [headOr] at hl
      | cons c B =>
        obtain ⟨q, y⟩ := c
        simp only [headOr, Option.some.injEq] at hl
        subst hl
        obtain ⟨n, h4, h5, h6⟩ := sB2.setPrevious nB (some a)
        have hba : q ∈ ((q, y) :: B).map Prod.fst := by simp
        refine ⟨_, l2, by simp only [LList.linkPrevious, h5, Res.bind_ok, Res.pure_eq], ?_, sA2.congr fun p hp => ?_, h6, rfl, hlc2, ?_, fun p hp => ?_⟩
        · have : a ≠ q := fun e => ha.2 (e ▸ hba)
          simp [Heap.put, this]
        · have : p ≠ q := fun e => nAB p hp q hba e
          simp [Heap.put, this]
        · rw [hl2, hr.last, lastOr_append]; rfl
        · have : p ≠ q := fun e => hp (e ▸ hba)
          simp [Heap.put, this]
  refine ⟨h3, { l3 with count := l3.count + 1 }, ?_, ⟨?_, ?_, ?_, ?_, ?_, ?_⟩⟩
  · simp only [LList.insertAfter, hafter, Res.bind_ok, ← hh1, c2, c3, Res.pure_eq]
  · rw [headOr_append]; exact hf3.trans hf2
  · rw [lastOr_append]; exact hl3
  · simp only [hc3, hr.count, List.length_append, List.length_cons]; omega
  · rw [List.map_append, List.map_cons, List.nodup_append]
    refine ⟨nA, List.nodup_cons.2 ⟨ha.2, nB⟩, fun p hp q hq e => ?_⟩
    rcases List.mem_cons.1 hq with rfl | hq
    · exact ha.1 (e ▸ hp)
    · exact nAB p hp q hq e
  · refine Seg.append.2 ⟨sA3, ?_, sB3⟩
    rw [eA3, eA, ea]
  · intro p hp
    simp only [List.map_append, List.map_cons, List.mem_append, List.mem_cons, not_or] at hp
    rw [hh3 p hp.2.2, hh2 p hp.1, e1 p hp.2.1]
    exact hr.only p (by simpa using ⟨by simpa using hp.1, by simpa using hp.2.2⟩)

theorem LRep.delete {h : Heap α} {l : LList} {A B : List (Nat × α)} {a : Nat} {x : α}
    (hr : LRep h l (A ++ (a, x) :: B)) :
    ∃ h' l', LList.deleteNode h l a = .ok (h', l') ∧ LRep h' l' (A ++ B) := by
  obtain ⟨s1, s2⟩ := Seg.append.1 hr.seg
  obtain ⟨ea, s3⟩ := s2
  have hnd := hr.nodup
  rw [List.map_append, List.map_cons, List.nodup_append, List.nodup_cons] at hnd
  obtain ⟨nA, ⟨naB, nB⟩, nAB⟩ := hnd
  have naA : a ∉ A.map Prod.fst := fun e => nAB a e a (by simp) rfl
  have nAB' : ∀ p ∈ A.map Prod.fst, ∀ q ∈ B.map Prod.fst, p ≠ q := fun p hp q hq => nAB p hp q (List.mem_cons_of_mem _ hq)
  set h1 : Heap α := fun q => if q = a then none else h q with hh1
  have e1 : ∀ p, p ≠ a → h1 p = h p := fun p hp => by simp [hh1, hp]
  have sA : Seg h1 none A (some a) := s1.congr fun p hp => e1 p fun e => naA (e ▸ hp)
  have sB : Seg h1 (some a) B none := s3.congr fun p hp => e1 p fun e => naB (e ▸ hp)
  have ea1 : h1 a = none := by simp [hh1]
  obtain ⟨h2, l2, c2, sA2, hB2, hf2, hlc2, hl2, hh2⟩ : ∃ (h2 : Heap α) (l2 : LList),
      LList.linkNext h1 l (headOr B none) (lastOr none A) = .ok (h2, l2) ∧
      Seg h2 none A (headOr B none) ∧ (∀ p ∈ B.map Prod.fst, h2 p = h1 p) ∧
      l2.first = headOr A (headOr B none) ∧ l2.count = l.count ∧ l2.last = l.last ∧
      (∀ p, p ∉ A.map Prod.fst → h2 p = h1 p) := by
    cases hl : lastOr none A with
    | none =>
      have := lastOr_none hl; subst this
      exact ⟨h1, _, rfl, trivial, fun _ _ => rfl, rfl, rfl, rfl, fun _ _ => rfl⟩
    | some b =>
      rcases lastOr_some hl with ⟨_, h0⟩ | ⟨A', y, rfl⟩
      · cases h0
      · obtain ⟨n, h3, h4, h5⟩ := sA.setNext nA (headOr B none)
        have hba : b ∈ (A' ++ [(b, y)]).map Prod.fst := by simp
        refine ⟨_, l, by simp only [LList.linkNext, h4, Res.bind_ok, Res.pure_eq], h5, fun p hp => ?_, ?_, rfl, rfl, fun p hp => ?_⟩
        · have : p ≠ b := fun e => nAB' b hba p hp e.symm
          simp [Heap.put, this]
        · have := hr.first
          rw [headOr_append] at this
          rw [this]
          cases A' <;> rfl
        · have : p ≠ b := fun e => hp (e ▸ hba)
          simp [Heap.put, this]
  have sB2 : Seg h2 (some a) B none := sB.congr hB2
  obtain ⟨h3, l3, c3, sA3, sB3, hf3, hc3, hl3, hh3⟩ : ∃ (h3 : Heap α) (l3 : LList),
      LList.linkPrevious h2 l2 (lastOr none A) (headOr B none) = .ok (h3, l3) ∧
      Seg h3 none A (headOr B none) ∧ Seg h3 (lastOr none A) B none ∧
      l3.first = l2.first ∧ l3.count = l.count ∧ l3.last = lastOr (lastOr none A) B ∧
      (∀ p, p ∉ B.map Prod.fst → h3 p = h2 p) := by
    cases hl : headOr B none with
    | none =>
      have := headOr_none hl; subst this
      exact ⟨h2, _, rfl, sA2, trivial, rfl, hlc2, rfl, fun _ _ => rfl⟩
    | some b =>
      cases B with
      | nil => simp [headOr] at hl
      | cons c B =>
        obtain ⟨q, y⟩ := c
        simp only [headOr, Option.some.injEq] at hl
        subst hl
        obtain ⟨n, h4, h5, h6⟩ := sB2.setPrevious nB (lastOr none A)
        have hba : q ∈ ((q, y) :: B).map Prod.fst := by simp
        refine ⟨_, l2, by simp only [LList.linkPrevious, h5, Res.bind_ok, Res.pure_eq], sA2.congr fun p hp => ?_, h6, rfl, hlc2, ?_, fun p hp => ?_⟩
        · have : p ≠ q := fun e => nAB' p hp q hba e
          simp [Heap.put, this]
        · rw [hl2, hr.last, lastOr_append]; rfl
        · have : p ≠ q := fun e => hp (e ▸ hba)
          simp [Heap.put, this]
  refine ⟨h3, { l3 with count := l3.count - 1 }, ?_, ⟨?_, ?_, ?_, ?_, ?_, ?_⟩⟩
  · have hload : h.load a = .ok ⟨headOr B none, lastOr none A, x⟩ := by simp [Heap.load, ea]
    have hfree : h.free a = .ok h1 := by simp [Heap.free, hload, hh1]
    simp only [LList.deleteNode, hload, hfree, Res.bind_ok, c2, c3, Res.pure_eq]
  · rw [headOr_append]; exact hf3.trans hf2
  · rw [lastOr_append]; exact hl3
  · simp only [hc3, hr.count, List.length_append, List.length_cons]; omega
  · rw [List.map_append, List.nodup_append]
    exact ⟨nA, nB, nAB'⟩
  · exact Seg.append.2 ⟨sA3, sB3⟩
  · intro p hp
    simp only [List.map_append, List.mem_append, not_or] at hp
    rw [hh3 p hp.2, hh2 p hp.1]
    by_cases hpa : p = a
    · rw [hpa]; exact ea1
    · rw [e1 p hpa]
      exact hr.only p (by simp only [List.map_append, List.map_cons, List.mem_append, List.mem_cons, not_or]; exact ⟨hp.1, hpa, hp.2⟩)

theorem Seg.walkNext {h : Heap α} {A : List (Nat × α)} {q : Nat} {y : α} {B : List (Nat × α)} {pv nx : Option Nat}
    (hs : Seg h pv (A ++ (q, y) :: B) nx) :
    LList.walk h (·.next) A.length (headOr (A ++ (q, y) :: B) nx) = .ok (some q) := by
  induction A generalizing pv with
  | nil => rfl
  | cons a A ih =>
    obtain ⟨p, x⟩ := a
    obtain ⟨h1, h2⟩ := hs
    simp only [List.cons_append, headOr, List.length_cons, LList.walk, Heap.load, h1, Res.bind_ok]
    have := ih h2
    cases A <;> exact this

theorem Seg.walkPrev {h : Heap α} {B A : List (Nat × α)} {q : Nat} {y : α} {pv nx : Option Nat}
    (hs : Seg h pv (A ++ (q, y) :: B) nx) :
    LList.walk h (·.previous) B.length (lastOr pv (A ++ (q, y) :: B)) = .ok (some q) := by
  induction B using List.reverseRecOn generalizing nx with
  | nil => simp [lastOr, LList.walk]
  | append_singleton B b ih =>
    obtain ⟨p, x⟩ := b
    have e : A ++ (q, y) :: (B ++ [(p, x)]) = (A ++ (q, y) :: B) ++ [(p, x)] := by simp
    rw [e] at hs ⊢
    obtain ⟨h1, h2, _⟩ := Seg.append.1 hs
    rw [lastOr_append]
    simp only [lastOr, List.length_append, List.length_singleton, LList.walk, Heap.load, h2, Res.bind_ok]
    exact ih h1

theorem LRep.getNode {h : Heap α} {l : LList} {A B : List (Nat × α)} {q : Nat} {y : α}
    (hr : LRep h l (A ++ (q, y) :: B)) : LList.getNode h l A.length = .ok (some q) := by
  have hc := hr.count
  simp only [List.length_append, List.length_cons] at hc
  simp only [LList.getNode, if_pos (show A.length < l.count by omega)]
  split
  · rw [hr.first]; exact hr.seg.walkNext
  · rw [hr.last, show l.count - A.length - 1 = B.length by omega]; exact hr.seg.walkPrev

end Verif
