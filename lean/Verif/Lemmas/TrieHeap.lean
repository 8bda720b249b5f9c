import Verif.Spec.TrieOwnership
import Verif.Lemmas.Trie

/-!
# Lemmas on trie nodes in memory
-/

namespace Verif
open TrieOwn
variable {α : Type}

namespace TrieHeap

theorem get_put (m : Mem α) {p : Nat} {d : Cell α} (h : get m p = some d) (c : Cell α) (a : Nat) :
    get (put m p c) a = if a = p then some c else get m a := by
  simp only [get, put] at h ⊢
  induction m with
  | nil => simp at h
  | cons x xs ih =>
    simp only [List.map_cons, List.find?_cons] at h ⊢
    by_cases hx : x.1 = p
    · simp only [hx, if_true]
      by_cases ha : a = p
      · simp [ha]
      · simp only [ha, if_false, decide_eq_false (Ne.symm ha)]
        have : ∀ ys : List (Nat × Cell α), (List.find? (fun c => decide (c.1 = a))
            (ys.map fun d => if d.1 = p then (p, c) else d)) =
            List.find? (fun c => decide (c.1 = a)) ys := by
          intro ys
          induction ys with
          | nil => rfl
          | cons y ys ihy =>
            simp only [List.map_cons, List.find?_cons]
            by_cases hy : y.1 = p
            · simp [hy, Ne.symm ha, ihy]
            · simp only [hy, if_false, ihy]
        rw [this]
    · simp only [hx, if_false, decide_false] at h ⊢
      by_cases hxa : x.1 = a
      · have : a ≠ p := fun e => hx (hxa.trans e)
        simp [hxa, this]
      · simp only [hxa, decide_false]
        exact ih h

/-- The node `calloc` returns. -/
def blank : Cell α := ⟨false, 0, none, fun _ => none⟩

theorem get_new (M : Malloc α) (m : Mem α) (a : Nat) :
    get (newNode M m).2 a = if a = (newNode M m).1 then some blank else get m a := by
  simp only [get, newNode, List.find?_cons]
  by_cases h : a = M.pick m
  · simp [h, blank]
  · simp [h, Ne.symm h]

theorem new_fresh (M : Malloc α) (m : Mem α) : get m (newNode M m).1 = none := by
  simp only [get, newNode, Option.map_eq_none_iff, List.find?_eq_none, decide_eq_true_eq]
  intro x hx h
  exact M.fresh m x hx (of_decide_eq_true h)

theorem free_ok {m : Mem α} {p : Nat} {c : Cell α} (h : get m p = some c) :
    ∃ m', free m p = .ok m' ∧ ∀ a, get m' a = if a = p then none else get m a := by
  refine ⟨m.filter fun c => c.1 ≠ p, by simp only [free, h], fun a => ?_⟩
  simp only [get, List.find?_filter]
  by_cases ha : a = p
  · have : List.find? (fun c => decide (decide (c.1 ≠ p) = true ∧ decide (c.1 = a) = true)) m = none := by
      rw [List.find?_eq_none]
      intro x _
      simp [ha]
    rw [this]
    simp [ha]
  · simp only [ha, if_false]
    congr 2
    funext x
    by_cases hx : x.1 = a <;> simp [hx, ha]

theorem load_ok {m : Mem α} {p : Nat} {c : Cell α} (h : get m p = some c) : load m p = .ok c := by
  simp only [load, h]

end TrieHeap

open TrieHeap

/-! ## Ownership -/

theorem TrieOwn.Own.congr {g h : Nat → Option (Cell α)} {n : TNode α} {p : Nat} {S : Nat → Prop}
    (H : Own g n p S) (e : ∀ a, S a → h a = g a) : Own h n p S := by
  induction H with
  | mk t k d f p ptr Ss S here same none below apart disjoint all ih =>
    exact .mk t k d f p ptr Ss S ((e p ((all p).mpr (.inl rfl))).trans here) same none
      (fun i c q h1 h2 => ih i c q h1 h2 fun a ha => e a ((all a).mpr (.inr ⟨i, ha⟩)))
      apart disjoint all

theorem TrieOwn.Own.root {g : Nat → Option (Cell α)} {n : TNode α} {p : Nat} {S : Nat → Prop}
    (H : Own g n p S) : S p := by
  cases H with
  | mk t k d f p ptr Ss S here same none below apart disjoint all => exact (all p).mpr (.inl rfl)

theorem TrieOwn.Own.live {g : Nat → Option (Cell α)} {n : TNode α} {p : Nat} {S : Nat → Prop}
    (H : Own g n p S) : ∀ a, S a → g a ≠ none := by
  induction H with
  | mk t k d f p ptr Ss S here same none below apart disjoint all ih =>
    intro a ha
    rcases (all a).mp ha with rfl | ⟨i, hi⟩
    · rw [here]; simp
    · cases hf : f i with
      | none => exact absurd hi (none i hf a)
      | some c =>
        have := same i
        rw [hf] at this
        obtain ⟨q, hq⟩ := Option.isSome_iff_exists.mp this
        exact ih i c q hf hq a hi

/-- The parts of a node held at `p`. -/
theorem TrieOwn.Own.inv {g : Nat → Option (Cell α)} {n : TNode α} {p : Nat} {S : Nat → Prop}
    (H : Own g n p S) : ∃ (ptr : Fin 92 → Option Nat) (Ss : Fin 92 → Nat → Prop),
      g p = some ⟨n.terminal, n.numSucc, n.data, ptr⟩ ∧
      (∀ i, (ptr i).isSome = (n.next i).isSome) ∧
      (∀ i, n.next i = none → ∀ a, ¬ Ss i a) ∧
      (∀ i c q, n.next i = some c → ptr i = some q → Own g c q (Ss i)) ∧
      (∀ i a, Ss i a → a ≠ p) ∧ (∀ i j a, Ss i a → Ss j a → i = j) ∧
      (∀ a, S a ↔ a = p ∨ ∃ i, Ss i a) := by
  cases H with
  | mk t k d f p ptr Ss S here same none below apart disjoint all =>
    exact ⟨ptr, Ss, here, same, none, below, apart, disjoint, all⟩

/-- One successor of the node is exchanged: the memory `g'` holds the successor `v` (`none`: no
successor) at `r`, in the addresses `T`, which are apart from those of the other branches. -/
theorem TrieOwn.own_set {g g' : Nat → Option (Cell α)} {f : Fin 92 → Option (TNode α)} {p : Nat}
    {ptr : Fin 92 → Option Nat} {Ss : Fin 92 → Nat → Prop} {i : Fin 92}
    (same : ∀ j, (ptr j).isSome = (f j).isSome)
    (none : ∀ j, f j = none → ∀ a, ¬ Ss j a)
    (below : ∀ j c q, f j = some c → ptr j = some q → Own g c q (Ss j))
    (apart : ∀ j a, Ss j a → a ≠ p) (disjoint : ∀ j k a, Ss j a → Ss k a → j = k)
    {t : Bool} {k : UInt8} {d : Option α} {v : Option (TNode α)} {r : Option Nat} {T : Nat → Prop}
    (hp : g' p = some ⟨t, k, d, setPtr ptr i r⟩) (hvr : r.isSome = v.isSome)
    (hv0 : v = Option.none → ∀ a, ¬ T a)
    (hv : ∀ c q, v = some c → r = some q → Own g' c q T)
    (hTp : ∀ a, T a → a ≠ p) (hT : ∀ j a, j ≠ i → Ss j a → ¬ T a)
    (hfr : ∀ j a, j ≠ i → Ss j a → g' a = g a) :
    Own g' (.mk t k d (setNext f i v)) p
      (fun a => a = p ∨ T a ∨ ∃ j, j ≠ i ∧ Ss j a) := by
  refine .mk _ _ _ _ _ (setPtr ptr i r) (fun j => if j = i then T else Ss j) _ hp ?_ ?_ ?_ ?_ ?_ ?_
  · intro j
    simp only [setPtr, setNext]
    by_cases hj : j = i
    · simp only [hj, if_true, hvr]
    · simp only [hj, if_false, same j]
  · intro j
    simp only [setNext]
    by_cases hj : j = i
    · simpa only [hj, if_true] using hv0
    · simpa only [hj, if_false] using none j
  · intro j c q
    simp only [setNext, setPtr]
    by_cases hj : j = i
    · simpa only [hj, if_true] using hv c q
    · simp only [hj, if_false]
      intro h1 h2
      exact (below j c q h1 h2).congr fun a ha => hfr j a hj ha
  · intro j a
    by_cases hj : j = i
    · simpa only [hj, if_true] using hTp a
    · simpa only [hj, if_false] using apart j a
  · intro j l a
    by_cases hj : j = i <;> by_cases hl : l = i
    · intro _ _; rw [hj, hl]
    · simp only [hj, hl, if_true, if_false]
      intro h1 h2
      exact absurd h1 (hT l a hl h2)
    · simp only [hj, hl, if_true, if_false]
      intro h1 h2
      exact absurd h2 (hT j a hj h1)
    · simpa only [hj, hl, if_false] using disjoint j l a
  · intro a
    constructor
    · rintro (h | h | ⟨j, hj, h⟩)
      · exact .inl h
      · exact .inr ⟨i, by simpa only [if_true] using h⟩
      · exact .inr ⟨j, by simpa only [hj, if_false] using h⟩
    · rintro (h | ⟨j, h⟩)
      · exact .inl h
      · by_cases hj : j = i
        · simp only [hj, if_true] at h; exact .inr (.inl h)
        · simp only [hj, if_false] at h; exact .inr (.inr ⟨j, hj, h⟩)

theorem TrieOwn.own_blank {g : Nat → Option (Cell α)} {p : Nat} (h : g p = some blank) :
    Own g TNode.fresh p (fun a => a = p) :=
  .mk _ _ _ _ _ (fun _ => none) (fun _ _ => False) _ h (fun _ => rfl) (fun _ _ _ h => h)
    (fun _ _ _ h => by cases h) (fun _ _ h => h.elim) (fun _ _ _ h => h.elim) (fun a => by simp)

/-- Only flags of the node at `p` are changed. -/
theorem TrieOwn.own_flags {g g' : Nat → Option (Cell α)} {n : TNode α} {p : Nat} {S : Nat → Prop}
    (H : Own g n p S) {t : Bool} {d : Option α}
    (hp : ∀ c, g p = some c → g' p = some { c with terminal := t, data := d })
    (hfr : ∀ a, a ≠ p → g' a = g a) : Own g' (.mk t n.numSucc d n.next) p S := by
  obtain ⟨ptr, Ss, here, same, none, below, apart, disjoint, all⟩ := H.inv
  exact .mk _ _ _ _ _ ptr Ss S (hp _ here) same none
    (fun i c q h1 h2 => (below i c q h1 h2).congr fun a ha => hfr a (apart i a ha)) apart disjoint all

/-! ## Addition -/

/-- No node of `g` has lost a successor or changed its payload in `g'`. -/
def Grows (g g' : Nat → Option (Cell α)) : Prop :=
  ∀ a c, g a = some c → ∃ c', g' a = some c' ∧ (∀ i q, c.next i = some q → c'.next i = some q) ∧
    c'.data = c.data

theorem Grows.refl (g : Nat → Option (Cell α)) : Grows g g := fun _ c h => ⟨c, h, fun _ _ h => h, rfl⟩

theorem Grows.trans {g1 g2 g3 : Nat → Option (Cell α)} (h1 : Grows g1 g2) (h2 : Grows g2 g3) :
    Grows g1 g3 := by
  intro a c h
  obtain ⟨c', e1, e2, e3⟩ := h1 a c h
  obtain ⟨c'', f1, f2, f3⟩ := h2 a c' e1
  exact ⟨c'', f1, fun i q hq => f2 i q (e2 i q hq), f3.trans e3⟩

theorem Grows.path {g g' : Nat → Option (Cell α)} (h : Grows g g') {p q : Nat} {s : Str}
    (H : Leads g p s q) : Leads g' p s q := by
  induction H with
  | here p => exact .here p
  | next hx hp hq _ ih =>
    obtain ⟨c', e1, e2, _⟩ := h _ _ hp
    exact .next hx e1 (e2 _ _ hq) ih

theorem charIndex_val {x : Char} {i : Fin 92} (h : charIndex x = some i) : x.toNat = i.val + 33 := by
  rw [Trie.charIndex_eq_some] at h; omega

theorem addLoop_ok (M : Malloc α) : ∀ (s : Str) (n : TNode α) (m : Mem α) (p : Nat) (S : Nat → Prop)
    (n' : TNode α) (b : Bool), Own (get m) n p S → Trie.addNode n s = .ok (n', b) →
    ∃ r m' S', addLoop M s m p = .ok (r, m') ∧ r.isSome = b ∧ Own (get m') n' p S' ∧
      (∀ a, S a → S' a) ∧ (∀ a, S' a → S a ∨ get m a = none) ∧
      (∀ a, ¬ S' a → get m' a = get m a) ∧ Grows (get m) (get m') ∧
      (∀ q, r = some q → Leads (get m') p s q)
  | [], n, m, p, S, n', b, H, hn => by
    obtain ⟨ptr, Ss, here, -⟩ := H.inv
    simp only [addLoop, load_ok here, Out.bind_ok]
    simp only [Trie.addNode] at hn
    by_cases ht : n.terminal = true
    · simp only [ht, if_true, Res.ok.injEq, Prod.mk.injEq] at hn ⊢
      obtain ⟨rfl, rfl⟩ := hn
      exact ⟨none, m, S, rfl, rfl, H, fun _ h => h, fun _ h => .inl h, fun _ _ => rfl, .refl _,
        fun _ h => by cases h⟩
    · have ht' : n.terminal = false := by simpa using ht
      simp only [ht', Bool.false_eq_true, if_false, Res.ok.injEq, Prod.mk.injEq] at hn ⊢
      obtain ⟨rfl, rfl⟩ := hn
      have hg := get_put m here ⟨true, n.numSucc, n.data, ptr⟩
      refine ⟨some p, _, S, rfl, rfl, ?_, fun _ h => h, fun _ h => .inl h, ?_, ?_, ?_⟩
      · refine own_flags H (fun c hc => ?_) fun a ha => by rw [hg, if_neg ha]
        rw [here] at hc
        cases hc
        rw [hg, if_pos rfl]
      · intro a ha
        rw [hg, if_neg fun (e : a = p) => ha (e ▸ H.root)]
      · intro a c hc
        rw [hg]
        by_cases e : a = p
        · rw [if_pos e]
          rw [e, here] at hc
          cases hc
          exact ⟨_, rfl, fun _ _ h => h, rfl⟩
        · rw [if_neg e]
          exact ⟨c, hc, fun _ _ h => h, rfl⟩
      · intro q hq
        cases hq
        exact .here p
  | x :: s, n, m, p, S, n', b, H, hn => by
    obtain ⟨ptr, Ss, here, same, none, below, apart, disjoint, all⟩ := H.inv
    simp only [Trie.addNode] at hn
    simp only [addLoop]
    cases hx : charIndex x with
    | none => rw [hx] at hn; cases hn
    | some i =>
      rw [hx] at hn
      simp only [load_ok here, Out.bind_ok] at hn ⊢
      have hsame := same i
      cases hf : n.next i with
      | some c =>
        simp only [hf] at hn hsame
        obtain ⟨q, hq⟩ := Option.isSome_iff_exists.mp hsame
        simp only [hq]
        cases hr : Trie.addNode c s with
        | defect => rw [hr] at hn; cases hn
        | ub => rw [hr] at hn; cases hn
        | ok v =>
          obtain ⟨c', b'⟩ := v
          rw [hr] at hn
          simp only [Res.bind_ok, Res.pure_eq, Res.ok.injEq, Prod.mk.injEq] at hn
          obtain ⟨rfl, rfl⟩ := hn
          obtain ⟨r, m', T, e1, e2, e3, e4, e5, e6, e7, e8⟩ :=
            addLoop_ok M s c m q (Ss i) c' b' (below i c q hf hq) hr
          have hTp : ∀ a, T a → a ≠ p := by
            intro a ha e
            rcases e5 a ha with h | h
            · exact apart i a h e
            · rw [e, here] at h; cases h
          have hTj : ∀ j a, j ≠ i → Ss j a → ¬ T a := by
            intro j a hj h hT
            rcases e5 a hT with h' | h'
            · exact hj (disjoint j i a h h')
            · exact H.live a ((all a).mpr (.inr ⟨j, h⟩)) h'
          have hp' : get m' p = some ⟨n.terminal, n.numSucc, n.data, setPtr ptr i (some q)⟩ := by
            rw [e6 p fun h => hTp p h rfl, here]
            congr 2
            funext j
            simp only [setPtr]
            by_cases hj : j = i
            · rw [if_pos hj, hj, hq]
            · rw [if_neg hj]
          have hown := own_set (t := n.terminal) (k := n.numSucc) (d := n.data) (v := some c')
            same none below apart disjoint hp' rfl (fun h => by cases h)
            (fun c2 q2 h1 h2 => by cases h1; cases h2; exact e3) hTp hTj
            (fun j a hj h => e6 a (hTj j a hj h))
          refine ⟨r, m', _, e1, e2, hown, ?_, ?_, ?_, e7, ?_⟩
          · intro a ha
            rcases (all a).mp ha with h | ⟨j, h⟩
            · exact .inl h
            · by_cases hj : j = i
              · exact .inr (.inl (e4 a (hj ▸ h)))
              · exact .inr (.inr ⟨j, hj, h⟩)
          · rintro a (h | h | ⟨j, _, h⟩)
            · exact .inl ((all a).mpr (.inl h))
            · rcases e5 a h with h' | h'
              · exact .inl ((all a).mpr (.inr ⟨i, h'⟩))
              · exact .inr h'
            · exact .inl ((all a).mpr (.inr ⟨j, h⟩))
          · intro a ha
            exact e6 a fun h => ha (.inr (.inl h))
          · intro q' hq'
            exact .next (charIndex_val hx) hp' (by simp [setPtr]) (e8 q' hq')
      | none =>
        simp only [hf] at hn hsame
        have hq : ptr i = Option.none := by simpa using hsame
        simp only [hq]
        cases hr : Trie.addNode TNode.fresh s with
        | defect => rw [hr] at hn; cases hn
        | ub => rw [hr] at hn; cases hn
        | ok v =>
          obtain ⟨c', b'⟩ := v
          rw [hr] at hn
          simp only [Res.bind_ok, Res.pure_eq, Res.ok.injEq, Prod.mk.injEq] at hn
          obtain ⟨rfl, rfl⟩ := hn
          have hfresh := new_fresh M m
          have hgn := get_new M m
          generalize hna : newNode M m = a0 at hfresh hgn
          obtain ⟨q, m1⟩ := a0
          simp only at hfresh hgn
          have hqp : q ≠ p := fun e => by rw [e, here] at hfresh; cases hfresh
          have here1 : get m1 p = some ⟨n.terminal, n.numSucc, n.data, ptr⟩ := by
            rw [hgn, if_neg (Ne.symm hqp), here]
          simp only [load_ok here1, Out.bind_ok]
          have hg2 := get_put m1 here1 ⟨n.terminal, n.numSucc + 1, n.data, setPtr ptr i (some q)⟩
          generalize put m1 p ⟨n.terminal, n.numSucc + 1, n.data, setPtr ptr i (some q)⟩ = m2 at hg2
          have hb : Own (get m2) TNode.fresh q (fun a => a = q) :=
            own_blank (by rw [hg2, if_neg hqp, hgn, if_pos rfl])
          obtain ⟨r, m', T, e1, e2, e3, e4, e5, e6, e7, e8⟩ :=
            addLoop_ok M s TNode.fresh m2 q _ c' b' hb hr
          have hnone : ∀ a, get m2 a = Option.none → get m a = Option.none := by
            intro a h
            rw [hg2] at h
            by_cases ha : a = p
            · rw [if_pos ha] at h; cases h
            · rw [if_neg ha, hgn] at h
              by_cases ha2 : a = q
              · rw [if_pos ha2] at h; cases h
              · rwa [if_neg ha2] at h
          have hTm : ∀ a, T a → get m a = Option.none := by
            intro a ha
            rcases e5 a ha with h | h
            · rw [h]; exact hfresh
            · exact hnone a h
          have hTp : ∀ a, T a → a ≠ p := by
            intro a ha e
            have := hTm a ha
            rw [e, here] at this; cases this
          have hTj : ∀ j a, j ≠ i → Ss j a → ¬ T a := by
            intro j a hj h hT
            exact H.live a ((all a).mpr (.inr ⟨j, h⟩)) (hTm a hT)
          have hp' : get m' p = some ⟨n.terminal, n.numSucc + 1, n.data, setPtr ptr i (some q)⟩ := by
            rw [e6 p fun h => hTp p h rfl, hg2, if_pos rfl]
          have hfr : ∀ a, ¬ T a → a ≠ p → get m' a = get m a := by
            intro a hT ha
            rw [e6 a hT, hg2, if_neg ha, hgn, if_neg fun e => hT (e4 a e)]
          have hown := own_set (t := n.terminal) (k := n.numSucc + 1) (d := n.data) (v := some c')
            same none below apart disjoint hp' rfl (fun h => by cases h)
            (fun c2 q2 h1 h2 => by cases h1; cases h2; exact e3) hTp hTj
            (fun j a hj h => hfr a (hTj j a hj h) (apart j a h))
          refine ⟨r, m', _, e1, e2, hown, ?_, ?_, ?_, ?_, ?_⟩
          · intro a ha
            rcases (all a).mp ha with h | ⟨j, h⟩
            · exact .inl h
            · by_cases hj : j = i
              · exact absurd (hj ▸ h) (none i hf a)
              · exact .inr (.inr ⟨j, hj, h⟩)
          · rintro a (h | h | ⟨j, _, h⟩)
            · exact .inl ((all a).mpr (.inl h))
            · exact .inr (hTm a h)
            · exact .inl ((all a).mpr (.inr ⟨j, h⟩))
          · intro a ha
            exact hfr a (fun h => ha (.inr (.inl h))) fun h => ha (.inl h)
          · intro a c hc
            by_cases ha : a = p
            · rw [ha, here] at hc
              cases hc
              rw [ha]
              refine ⟨_, hp', ?_, rfl⟩
              intro j r hj
              replace hj : ptr j = some r := hj
              simp only [setPtr]
              by_cases hji : j = i
              · rw [hji, hq] at hj; cases hj
              · rwa [if_neg hji]
            · refine ⟨c, ?_, fun _ _ h => h, rfl⟩
              rw [hfr a (fun h => by rw [hTm a h] at hc; cases hc) ha, hc]
          · intro q' hq'
            exact .next (charIndex_val hx) hp' (by simp [setPtr]) (e8 q' hq')

theorem addLoop_defect (M : Malloc α) : ∀ (s : Str) (n : TNode α) (m : Mem α) (p : Nat)
    (S : Nat → Prop), Own (get m) n p S → Trie.addNode n s = .defect → addLoop M s m p = .defect
  | [], n, m, p, S, H, hn => by
    simp only [Trie.addNode] at hn
    split at hn <;> cases hn
  | x :: s, n, m, p, S, H, hn => by
    obtain ⟨ptr, Ss, here, same, none, below, apart, disjoint, all⟩ := H.inv
    simp only [Trie.addNode] at hn
    simp only [addLoop]
    cases hx : charIndex x with
    | none => rfl
    | some i =>
      rw [hx] at hn
      simp only [load_ok here, Out.bind_ok] at hn ⊢
      have hsame := same i
      cases hf : n.next i with
      | some c =>
        simp only [hf] at hn hsame
        obtain ⟨q, hq⟩ := Option.isSome_iff_exists.mp hsame
        simp only [hq]
        cases hr : Trie.addNode c s with
        | defect => exact addLoop_defect M s c m q (Ss i) (below i c q hf hq) hr
        | ub => rw [hr] at hn; cases hn
        | ok v => obtain ⟨c', b'⟩ := v; rw [hr] at hn; cases hn
      | none =>
        simp only [hf] at hn hsame
        have hq : ptr i = Option.none := by simpa using hsame
        simp only [hq]
        have hfresh := new_fresh M m
        have hgn := get_new M m
        generalize hna : newNode M m = a0 at hfresh hgn
        obtain ⟨q, m1⟩ := a0
        simp only at hfresh hgn
        have hqp : q ≠ p := fun e => by rw [e, here] at hfresh; cases hfresh
        have here1 : get m1 p = some ⟨n.terminal, n.numSucc, n.data, ptr⟩ := by
          rw [hgn, if_neg (Ne.symm hqp), here]
        simp only [load_ok here1, Out.bind_ok]
        have hg2 := get_put m1 here1 ⟨n.terminal, n.numSucc + 1, n.data, setPtr ptr i (some q)⟩
        generalize put m1 p ⟨n.terminal, n.numSucc + 1, n.data, setPtr ptr i (some q)⟩ = m2 at hg2
        have hb : Own (get m2) TNode.fresh q (fun a => a = q) :=
          own_blank (by rw [hg2, if_neg hqp, hgn, if_pos rfl])
        cases hr : Trie.addNode TNode.fresh s with
        | defect => exact addLoop_defect M s _ _ q _ hb hr
        | ub => rw [hr] at hn; cases hn
        | ok v => obtain ⟨c', b'⟩ := v; rw [hr] at hn; cases hn

/-! ## Writing a payload -/

theorem setData_ok : ∀ {s : Str} {n : TNode α} {m : Mem α} {p q : Nat} {S : Nat → Prop} (x : α)
    {n' : TNode α}, Own (get m) n p S → Leads (get m) p s q → Trie.setDataNode n s x = .ok n' →
    ∃ m', setData m q x = .ok m' ∧ Own (get m') n' p S ∧ S q ∧
      (∀ a, a ≠ q → get m' a = get m a) ∧
      (∀ c, get m q = some c → get m' q = some { c with data := some x })
  | [], n, m, p, q, S, x, n', H, hl, hn => by
    cases hl
    obtain ⟨ptr, Ss, here, -⟩ := H.inv
    obtain ⟨t, k, d, f⟩ := n
    replace here : get m p = some ⟨t, k, d, ptr⟩ := here
    simp only [Trie.setDataNode, Res.ok.injEq] at hn
    subst hn
    have hg := get_put m here ⟨t, k, some x, ptr⟩
    refine ⟨_, by simp only [setData, load_ok here, Out.bind_ok]; rfl, ?_, H.root,
      fun a ha => by rw [hg, if_neg ha], ?_⟩
    · refine own_flags (n := .mk t k d f) H (fun c hc => ?_) fun a ha => by rw [hg, if_neg ha]
      rw [here] at hc
      cases hc
      rw [hg, if_pos rfl]
    · intro c hc
      rw [here] at hc
      cases hc
      rw [hg, if_pos rfl]
  | y :: s, n, m, p, q, S, x, n', H, hl, hn => by
    obtain ⟨ptr, Ss, here, same, none, below, apart, disjoint, all⟩ := H.inv
    obtain ⟨t, k, d, f⟩ := n
    replace here : get m p = some ⟨t, k, d, ptr⟩ := here
    cases hl with
    | @next _ r _ _ _ i c0 hx hp hq rest =>
      rw [here] at hp
      cases hp
      replace hq : ptr i = some r := hq
      simp only [Trie.setDataNode] at hn
      have hci : charIndex y = some i := by
        rw [Trie.charIndex_eq_some]
        omega
      simp only [hci] at hn
      have hsame := same i
      simp only [TNode.next_mk] at same none below hsame
      cases hf : f i with
      | none => rw [hf, hq] at hsame; cases hsame
      | some c =>
        simp only [hf] at hn
        cases hr : Trie.setDataNode c s x with
        | defect => rw [hr] at hn; cases hn
        | ub => rw [hr] at hn; cases hn
        | ok c' =>
          rw [hr] at hn
          simp only [Res.bind_ok, Res.pure_eq, Res.ok.injEq] at hn
          subst hn
          obtain ⟨m', e1, e2, e3, e4, e5⟩ := setData_ok x (below i c r hf hq) rest hr
          have hqp : q ≠ p := apart i q e3
          have hp' : get m' p = some ⟨t, k, d, setPtr ptr i (some r)⟩ := by
            rw [e4 p (Ne.symm hqp), here]
            congr 2
            funext j
            simp only [setPtr]
            by_cases hj : j = i
            · rw [if_pos hj, hj, hq]
            · rw [if_neg hj]
          have hown := own_set (t := t) (k := k) (d := d) (v := some c')
            same none below apart disjoint hp' rfl (fun h => by cases h)
            (fun c2 q2 h1 h2 => by cases h1; cases h2; exact e2) (apart i)
            (fun j a hj h h' => hj (disjoint j i a h h'))
            (fun j a hj h => e4 a fun e => hj (disjoint j i a h (e ▸ e3)))
          have hS : (fun a => a = p ∨ Ss i a ∨ ∃ j, j ≠ i ∧ Ss j a) = S := by
            funext a
            apply propext
            rw [all a]
            constructor
            · rintro (h | h | ⟨j, _, h⟩)
              · exact .inl h
              · exact .inr ⟨i, h⟩
              · exact .inr ⟨j, h⟩
            · rintro (h | ⟨j, h⟩)
              · exact .inl h
              · by_cases hj : j = i
                · exact .inr (.inl (hj ▸ h))
                · exact .inr (.inr ⟨j, hj, h⟩)
          exact ⟨m', e1, hS ▸ hown, (all q).mpr (.inr ⟨i, e3⟩), e4, e5⟩

/-! ## Removal -/

/-- What is left in `g'` was there in `g`, with at least the same successors and the same
payload. -/
def Shrinks (g g' : Nat → Option (Cell α)) : Prop :=
  ∀ a c', g' a = some c' → ∃ c, g a = some c ∧ (∀ i q, c'.next i = some q → c.next i = some q) ∧
    c'.data = c.data

theorem Shrinks.refl (g : Nat → Option (Cell α)) : Shrinks g g := fun _ c h => ⟨c, h, fun _ _ h => h, rfl⟩

theorem Shrinks.trans {g1 g2 g3 : Nat → Option (Cell α)} (h1 : Shrinks g1 g2) (h2 : Shrinks g2 g3) :
    Shrinks g1 g3 := by
  intro a c h
  obtain ⟨c', e1, e2, e3⟩ := h2 a c h
  obtain ⟨c'', f1, f2, f3⟩ := h1 a c' e1
  exact ⟨c'', f1, fun i q hq => f2 i q (e2 i q hq), e3.trans f3⟩

theorem Shrinks.leads {g g' : Nat → Option (Cell α)} (h : Shrinks g g') {p q : Nat} {s : Str}
    (H : Leads g' p s q) : Leads g p s q := by
  induction H with
  | here p => exact .here p
  | next hx hp hq _ ih =>
    obtain ⟨c', e1, e2, _⟩ := h _ _ hp
    exact .next hx e1 (e2 _ _ hq) ih

/-- The memory `m'` after a removal below the node at `p`: the node and the rest of the trie
(`none`: it has been freed). -/
def Left (m m' : Mem α) (S : Nat → Prop) (p : Nat) (o : Option (TNode α)) : Prop :=
  ∃ S', (∀ a, S' a → S a) ∧ (∀ a, S a → ¬ S' a → get m' a = none) ∧
    (∀ a, ¬ S a → get m' a = get m a) ∧ Shrinks (get m) (get m') ∧
    match o with
    | none => ∀ a, ¬ S' a
    | some n => Own (get m') n p S'

theorem tidy_ok {m m1 : Mem α} {n : TNode α} {p depth : Nat} {S S1 : Nat → Prop} (dec : Bool)
    (H : Own (get m1) n p S1) (hsub : ∀ a, S1 a → S a) (hgone : ∀ a, S a → ¬ S1 a → get m1 a = none)
    (hfr : ∀ a, ¬ S a → get m1 a = get m a) (hsh : Shrinks (get m) (get m1))
    (hz : n.numSucc = 0 → ∀ i, n.next i = none) :
    ∃ m', tidy m1 p depth = .ok ((Trie.prune (decide (depth ≠ 0)) dec n).2.isNone, m') ∧
      Left m m' S p (Trie.prune (decide (depth ≠ 0)) dec n).2 := by
  obtain ⟨ptr, Ss, here, same, none, below, apart, disjoint, all⟩ := H.inv
  simp only [tidy, load_ok here, Out.bind_ok, Trie.prune]
  by_cases h : n.numSucc = 0 ∧ depth ≠ 0 ∧ n.terminal = false
  · obtain ⟨m', e1, e2⟩ := free_ok here
    have hb : (n.numSucc == 0 && decide (depth ≠ 0) && !n.terminal) = true := by
      simp [h.1, h.2.1, h.2.2]
    rw [if_pos h, hb]
    simp only [e1, Out.bind_ok, if_true, Option.isNone_none]
    refine ⟨m', rfl, fun _ => False, fun _ h => h.elim, ?_, ?_, ?_, fun _ h => h⟩
    · intro a ha _
      rw [e2]
      by_cases hap : a = p
      · rw [if_pos hap]
      · rw [if_neg hap]
        refine hgone a ha fun h1 => ?_
        rcases (all a).mp h1 with h2 | ⟨i, h2⟩
        · exact hap h2
        · exact none i (hz h.1 i) a h2
    · intro a ha
      rw [e2, if_neg fun (e : a = p) => ha (hsub a (e ▸ H.root)), hfr a ha]
    · refine hsh.trans fun a c' hc' => ?_
      rw [e2] at hc'
      by_cases hap : a = p
      · rw [if_pos hap] at hc'; cases hc'
      · rw [if_neg hap] at hc'
        exact ⟨c', hc', fun _ _ h => h, rfl⟩
  · have hb : (n.numSucc == 0 && decide (depth ≠ 0) && !n.terminal) = false := by
      rw [Bool.eq_false_iff]
      intro hc
      apply h
      simpa [and_assoc] using hc
    rw [if_neg h, hb]
    simp only [Bool.false_eq_true, if_false, Option.isNone_some]
    exact ⟨m1, rfl, S1, hsub, hgone, hfr, hsh, H⟩

theorem zero_next {f : Fin 92 → Option (TNode α)} {k : UInt8} (hk : k.toNat = Trie.succCount f)
    (h : k = 0) : ∀ i, f i = none := by
  intro i
  exact Trie.succCount_zero (by rw [← hk, h]; rfl) i

theorem removeRec_ok : ∀ (s : Str) (n : TNode α) (m : Mem α) (p depth : Nat) (S : Nat → Prop) (w : Bool),
    Own (get m) n p S → Trie.WF w n → (depth = 0 → w = false) →
    ∃ m', removeRec s m p depth = .ok ((Trie.removeNode n (decide (depth ≠ 0)) s).1,
        (Trie.removeNode n (decide (depth ≠ 0)) s).2.isNone, m') ∧
      Left m m' S p (Trie.removeNode n (decide (depth ≠ 0)) s).2
  | [], n, m, p, depth, S, w, H, hw, hd => by
    obtain ⟨ptr, Ss, here, -⟩ := H.inv
    obtain ⟨t, k, d, f⟩ := n
    replace here : get m p = some ⟨t, k, d, ptr⟩ := here
    have hg := get_put m here ⟨false, k, d, ptr⟩
    simp only [removeRec, load_ok here, Out.bind_ok, Trie.removeNode]
    have hz : k.toNat = Trie.succCount f := by cases hw with | mk hk _ _ => exact hk
    have hH : Own (get (put m p ⟨false, k, d, ptr⟩)) (.mk false k d f) p S := by
      refine own_flags (n := .mk t k d f) H (fun c hc => ?_) fun a ha => by rw [hg, if_neg ha]
      rw [here] at hc
      cases hc
      rw [hg, if_pos rfl]
    obtain ⟨m', e1, e2⟩ := tidy_ok (m := m) (S := S) (depth := depth) t hH (fun _ h => h)
      (fun a h1 h2 => absurd h1 h2)
      (fun a ha => by rw [hg, if_neg fun (e : a = p) => ha (e ▸ H.root)]) (by
        intro a c' hc'
        rw [hg] at hc'
        by_cases hap : a = p
        · rw [if_pos hap] at hc'
          cases hc'
          rw [hap]
          exact ⟨_, here, fun _ _ h => h, rfl⟩
        · rw [if_neg hap] at hc'
          exact ⟨c', hc', fun _ _ h => h, rfl⟩)
      (zero_next hz)
    refine ⟨m', ?_, e2⟩
    simp only [TNode.numSucc_mk, TNode.data_mk, e1, Out.bind_ok]
    simp only [Trie.prune]
    split <;> rfl
  | x :: s, n, m, p, depth, S, w, H, hw, hd => by
    obtain ⟨ptr, Ss, here, same, none, below, apart, disjoint, all⟩ := H.inv
    have hw0 := hw
    obtain ⟨t, k, d, f⟩ := n
    replace here : get m p = some ⟨t, k, d, ptr⟩ := here
    simp only [removeRec, Trie.removeNode]
    cases hw with
    | mk hk hl hs =>
    cases hx : charIndex x with
    | none =>
      simp only [Option.isNone_some]
      exact ⟨m, rfl, S, fun _ h => h, fun a h1 h2 => absurd h1 h2, fun _ _ => rfl, .refl _, H⟩
    | some i =>
      simp only [load_ok here, Out.bind_ok]
      have hsame := same i
      simp only [TNode.next_mk] at same none below hsame
      cases hf : f i with
      | none =>
        rw [hf] at hsame
        have hq : ptr i = Option.none := by simpa using hsame
        simp only [hq]
        obtain ⟨m', e1, e2⟩ := tidy_ok (m := m) (S := S) (depth := depth) false H (fun _ h => h)
          (fun a h1 h2 => absurd h1 h2) (fun _ _ => rfl) (.refl _) (zero_next hk)
        refine ⟨m', ?_, e2⟩
        simp only [e1, Out.bind_ok]
        simp only [Trie.prune]
        split <;> rfl
      | some c =>
        rw [hf] at hsame
        obtain ⟨q, hq⟩ := Option.isSome_iff_exists.mp hsame
        simp only [hq]
        have hd1 : decide (depth + 1 ≠ 0) = true := by simp
        obtain ⟨m1, e1, T, f1, f2, f3, f4, f5⟩ :=
          removeRec_ok s c m q (depth + 1) (Ss i) true (below i c q hf hq) (hs i c hf) (by simp)
        rw [hd1] at e1 f5
        have hspec := Trie.removeNode_spec c true s (hs i c hf)
        simp only [e1, Out.bind_ok]
        have hTp : ∀ a, T a → a ≠ p := fun a h => apart i a (f1 a h)
        have hTj : ∀ j a, j ≠ i → Ss j a → ¬ T a := fun j a hj h h' => hj (disjoint j i a h (f1 a h'))
        have hp1 : get m1 p = some ⟨t, k, d, ptr⟩ := by
          rw [f3 p fun h => apart i p h rfl]; exact here
        rcases hr : Trie.removeNode c true s with ⟨dec, o⟩
        rw [hr] at f5 hspec
        cases o with
        | none =>
          simp only [Option.isNone_none, if_true, load_ok hp1, Out.bind_ok]
          have hg := get_put m1 hp1 ⟨t, k - 1, d, setPtr ptr i Option.none⟩
          generalize put m1 p ⟨t, k - 1, d, setPtr ptr i Option.none⟩ = m2 at hg
          have hown := own_set (g' := get m2) (t := t) (k := k - 1) (d := d) (v := Option.none)
            (r := Option.none) (T := fun _ => False) (i := i)
            same none below apart disjoint (by rw [hg, if_pos rfl]) rfl (fun _ _ h => h)
            (fun c2 q2 h1 h2 => by cases h1) (fun _ h => h.elim) (fun _ _ _ _ h => h)
            (fun j a hj h => by
              rw [hg, if_neg (apart j a h), f3 a fun h' => hj (disjoint j i a h h')])
          have hk' : (k - 1).toNat = Trie.succCount (setNext f i Option.none) := by
            have h1 := Trie.succCount_setNext_none f i c hf
            have h2 := Trie.succCount_le f
            rw [UInt8.toNat_sub_of_le]
            · rw [hk]; simp; omega
            · rw [UInt8.le_iff_toNat_le, hk]; simp; omega
          obtain ⟨m', g1, g2⟩ := tidy_ok (m := m) (S := S) (depth := depth) dec hown
            (by
              rintro a (h | h | ⟨j, _, h⟩)
              · exact (all a).mpr (.inl h)
              · exact h.elim
              · exact (all a).mpr (.inr ⟨j, h⟩))
            (by
              intro a ha hna
              rcases (all a).mp ha with h | ⟨j, h⟩
              · exact absurd (Or.inl h) hna
              · by_cases hj : j = i
                · rw [hg, if_neg (apart j a h)]
                  exact f2 a (hj ▸ h) (f5 a)
                · exact absurd (.inr (.inr ⟨j, hj, h⟩)) hna)
            (by
              intro a ha
              rw [hg, if_neg fun (e : a = p) => ha (e ▸ H.root)]
              exact f3 a fun h => ha ((all a).mpr (.inr ⟨i, h⟩)))
            (by
              refine f4.trans fun a c' hc' => ?_
              rw [hg] at hc'
              by_cases hap : a = p
              · rw [if_pos hap] at hc'
                cases hc'
                rw [hap]
                refine ⟨_, hp1, ?_, rfl⟩
                intro j r hj
                simp only [setPtr] at hj
                by_cases hji : j = i
                · rw [if_pos hji] at hj; cases hj
                · rwa [if_neg hji] at hj
              · rw [if_neg hap] at hc'
                exact ⟨c', hc', fun _ _ h => h, rfl⟩)
            (zero_next hk')
          refine ⟨m', ?_, g2⟩
          simp only [g1, Out.bind_ok]
          simp only [Trie.prune]
          split <;> rfl
        | some c' =>
          simp only [Option.isNone_some, Bool.false_eq_true, if_false]
          simp only at f5
          have hp2 : get m1 p = some ⟨t, k, d, setPtr ptr i (some q)⟩ := by
            rw [hp1]
            congr 2
            funext j
            simp only [setPtr]
            by_cases hj : j = i
            · rw [if_pos hj, hj, hq]
            · rw [if_neg hj]
          have hown := own_set (g' := get m1) (t := t) (k := k) (d := d) (v := some c')
            (r := some q) (T := T) (i := i)
            same none below apart disjoint hp2 rfl (fun h => by cases h)
            (fun c2 q2 h1 h2 => by cases h1; cases h2; exact f5) hTp hTj
            (fun j a hj h => f3 a fun h' => hj (disjoint j i a h h'))
          have hk' : k.toNat = Trie.succCount (setNext f i (some c')) := by
            rw [hk, Trie.succCount_setNext_some_some f i c' c hf]
          obtain ⟨m', g1, g2⟩ := tidy_ok (m := m) (S := S) (depth := depth) dec hown
            (by
              rintro a (h | h | ⟨j, _, h⟩)
              · exact (all a).mpr (.inl h)
              · exact (all a).mpr (.inr ⟨i, f1 a h⟩)
              · exact (all a).mpr (.inr ⟨j, h⟩))
            (by
              intro a ha hna
              rcases (all a).mp ha with h | ⟨j, h⟩
              · exact absurd (Or.inl h) hna
              · by_cases hj : j = i
                · exact f2 a (hj ▸ h) fun h' => hna (.inr (.inl h'))
                · exact absurd (.inr (.inr ⟨j, hj, h⟩)) hna)
            (fun a ha => f3 a fun h => ha ((all a).mpr (.inr ⟨i, h⟩))) f4
            (zero_next hk')
          refine ⟨m', ?_, g2⟩
          simp only [g1, Out.bind_ok]
          simp only [Trie.prune]
          split <;> rfl

/-! ## Paths -/

theorem TrieOwn.Leads.unique {g : Nat → Option (Cell α)} {p q r : Nat} {s : Str} (h1 : Leads g p s q)
    (h2 : Leads g p s r) : q = r := by
  induction h1 with
  | here p => cases h2; rfl
  | next hx hp hq _ ih =>
    cases h2 with
    | next hx' hp' hq' rest' =>
      rw [hp] at hp'
      cases hp'
      have : ∀ {i j : Fin 92}, i.val + 33 = j.val + 33 → i = j := fun h => Fin.ext (by omega)
      have hij := this (hx.symm.trans hx')
      subst hij
      rw [hq] at hq'
      cases hq'
      exact ih rest'

/-- Where the walk through the value ends, a walk through memory ends, at a node with the same
flags and payload. -/
theorem leads_walk : ∀ {s : Str} {n m0 : TNode α} {g : Nat → Option (Cell α)} {p : Nat} {S : Nat → Prop},
    Own g n p S → Trie.walk n s = some m0 → ∃ q c, Leads g p s q ∧ g q = some c ∧
      c.terminal = m0.terminal ∧ c.data = m0.data
  | [], n, m0, g, p, S, H, hw => by
    cases hw
    obtain ⟨ptr, Ss, here, -⟩ := H.inv
    exact ⟨p, _, .here p, here, rfl, rfl⟩
  | x :: s, n, m0, g, p, S, H, hw => by
    obtain ⟨ptr, Ss, here, same, none, below, -⟩ := H.inv
    simp only [Trie.walk] at hw
    cases hx : charIndex x with
    | none => simp only [hx] at hw; cases hw
    | some i =>
      simp only [hx] at hw
      have hsame := same i
      cases hf : n.next i with
      | none => simp only [hf] at hw; cases hw
      | some c =>
        simp only [hf] at hw hsame
        obtain ⟨q, hq⟩ := Option.isSome_iff_exists.mp hsame
        obtain ⟨r, c', e1, e2⟩ := leads_walk (below i c q hf hq) hw
        exact ⟨r, c', .next (charIndex_val hx) here hq e1, e2⟩

theorem leads_mem {s : Str} {n : TNode α} {g : Nat → Option (Cell α)} {p : Nat} {S : Nat → Prop}
    (H : Own g n p S) (h : Trie.mem n s = true) : ∃ q c, Leads g p s q ∧ g q = some c ∧
      c.terminal = true ∧ c.data = Trie.val n s := by
  simp only [Trie.mem] at h
  cases hw : Trie.walk n s with
  | none => rw [hw] at h; cases h
  | some m0 =>
    rw [hw] at h
    obtain ⟨q, c, e1, e2, e3, e4⟩ := leads_walk H hw
    exact ⟨q, c, e1, e2, e3.trans h, by rw [e4, Trie.val, hw]⟩

/-- Every node of a tidy trie is on the way to a stored string. -/
theorem own_reach {g : Nat → Option (Cell α)} {n : TNode α} {p : Nat} {S : Nat → Prop}
    (H : Own g n p S) (hw : Trie.WF true n) : ∀ a, S a → ∃ s u, Leads g p s a ∧
      Trie.mem n (s ++ u) = true := by
  induction H with
  | mk t k d f p ptr Ss S here same none below apart disjoint all ih =>
    intro a ha
    rcases (all a).mp ha with rfl | ⟨i, hi⟩
    · obtain ⟨s, hs⟩ := hw.exists_mem
      exact ⟨[], s, .here a, hs⟩
    · cases hf : f i with
      | none => exact absurd hi (none i hf a)
      | some c =>
        have hsame := same i
        rw [hf] at hsame
        obtain ⟨q, hq⟩ := Option.isSome_iff_exists.mp hsame
        cases hw with
        | mk hk hl hs =>
          obtain ⟨s, u, e1, e2⟩ := ih i c q hf hq (hs i c hf) a hi
          have hx : charIndex (Char.ofNat (i.val + 33)) = some i := by
            rw [Trie.charIndex_eq_some]
            have : (i.val + 33).isValidChar := by left; have := i.isLt; omega
            simp [Char.toNat, Char.ofNat, this, Char.ofNatAux]
            have := i.isLt
            omega
          refine ⟨Char.ofNat (i.val + 33) :: s, u, .next (charIndex_val hx) here hq e1, ?_⟩
          rw [List.cons_append, Trie.mem_cons]
          simp only [hx, TNode.next_mk, hf, e2]

/-! ## Queries -/

theorem longestLoop_ok : ∀ (s : Str) (n : TNode α) (m : Mem α) (p i res dat : Nat) (S : Nat → Prop)
    (x : Option α), Own (get m) n p S → (∃ c, get m dat = some c ∧ c.data = x) →
    ∃ r d, TrieHeap.longestLoop s m p i res dat = .ok (r, d) ∧
      r = (Trie.longestLoop n s i res x).1 ∧
      (∃ c, get m d = some c ∧ c.data = (Trie.longestLoop n s i res x).2) ∧
      (d = dat ∧ r = res ∨ ∃ k, k < s.length ∧ r = i + (k + 1) ∧ Leads (get m) p (s.take (k + 1)) d)
  | [], n, m, p, i, res, dat, S, x, H, hd =>
    ⟨res, dat, rfl, rfl, hd, .inl ⟨rfl, rfl⟩⟩
  | y :: s, n, m, p, i, res, dat, S, x, H, hd => by
    obtain ⟨ptr, Ss, here, same, none, below, -⟩ := H.inv
    simp only [TrieHeap.longestLoop, Trie.longestLoop]
    cases hx : charIndex y with
    | none => exact ⟨res, dat, rfl, rfl, hd, .inl ⟨rfl, rfl⟩⟩
    | some k =>
      simp only [load_ok here, Out.bind_ok]
      have hsame := same k
      cases hf : n.next k with
      | none =>
        simp only [hf] at hsame
        have hq : ptr k = Option.none := by simpa using hsame
        simp only [hq]
        exact ⟨res, dat, rfl, rfl, hd, .inl ⟨rfl, rfl⟩⟩
      | some c =>
        simp only [hf] at hsame
        obtain ⟨q, hq⟩ := Option.isSome_iff_exists.mp hsame
        simp only [hq]
        have hb := below k c q hf hq
        obtain ⟨ptr', Ss', here', -⟩ := hb.inv
        simp only [load_ok here', Out.bind_ok]
        by_cases ht : c.terminal = true
        · simp only [ht, if_true]
          obtain ⟨r, d, e1, e2, e3, e4⟩ := longestLoop_ok s c m q (i + 1) (i + 1) q _ c.data hb
            ⟨_, here', rfl⟩
          refine ⟨r, d, e1, e2, e3, .inr ?_⟩
          rcases e4 with ⟨rfl, rfl⟩ | ⟨j, h1, h2, h3⟩
          · exact ⟨0, by simp, rfl, .next (charIndex_val hx) here hq (by simpa using .here _)⟩
          · exact ⟨j + 1, by simpa using h1, by omega, .next (charIndex_val hx) here hq h3⟩
        · have ht' : c.terminal = false := by simpa using ht
          simp only [ht', Bool.false_eq_true, if_false]
          obtain ⟨r, d, e1, e2, e3, e4⟩ := longestLoop_ok s c m q (i + 1) res dat _ x hb hd
          refine ⟨r, d, e1, e2, e3, ?_⟩
          rcases e4 with h | ⟨j, h1, h2, h3⟩
          · exact .inl h
          · exact .inr ⟨j + 1, by simpa using h1, by omega, .next (charIndex_val hx) here hq h3⟩

theorem contains_ok {n : TNode α} {m : Mem α} {t : HTrie} {S : Nat → Prop}
    (H : Own (get m) n t.first S) (k : Nat) (s : Str) :
    ∃ q, TrieHeap.contains m t s = .ok ((Trie.contains ⟨k, n⟩ s).1, q) ∧
      (∃ c, get m q = some c ∧ c.data = (Trie.contains ⟨k, n⟩ s).2) ∧
      ((Trie.contains ⟨k, n⟩ s).1 = true → Leads (get m) t.first s q) := by
  obtain ⟨ptr, Ss, here, -⟩ := H.inv
  cases s with
  | nil =>
    refine ⟨t.first, ?_, ⟨_, here, rfl⟩, fun _ => .here _⟩
    simp only [TrieHeap.contains, load_ok here, Out.bind_ok]
    rfl
  | cons x s =>
    obtain ⟨r, d, e1, e2, e3, e4⟩ := longestLoop_ok (x :: s) n m t.first 0 0 t.first S n.data H
      ⟨_, here, rfl⟩
    refine ⟨d, ?_, e3, ?_⟩
    · simp only [TrieHeap.contains, TrieHeap.longestPrefix, e1, Out.bind_ok, e2]
      rfl
    · intro h
      have hr : r = (x :: s).length := by
        rw [e2]
        simpa [Trie.contains, Trie.longestPrefix] using h
      rcases e4 with ⟨-, h0⟩ | ⟨j, h1, h2, h3⟩
      · rw [h0] at hr; simp at hr
      · have hj : j + 1 = (x :: s).length := by omega
        rwa [hj, List.take_length] at h3

/-! ## Release -/

theorem destroyRec_ok {g : Nat → Option (Cell α)} {n : TNode α} {p : Nat} {S : Nat → Prop}
    (H : Own g n p S) : ∃ N, ∀ fuel, N ≤ fuel → ∀ m : Mem α, (∀ a, S a → get m a = g a) →
      ∃ m', destroyRec fuel m p = .ok m' ∧ (∀ a, S a → get m' a = none) ∧
        ∀ a, ¬ S a → get m' a = get m a := by
  induction H with
  | mk t k d f p ptr Ss S here same none below apart disjoint all ih =>
    have hloop : ∀ l : List (Fin 92), l.Nodup → ∃ N, ∀ fuel, N ≤ fuel → ∀ m : Mem α,
        get m p = some ⟨t, k, d, ptr⟩ → (∀ i ∈ l, ∀ a, Ss i a → get m a = g a) →
        ∃ m', l.foldlM (destroyNext (destroyRec fuel) p) m = Out.ok m' ∧
          (∀ i ∈ l, ∀ a, Ss i a → get m' a = Option.none) ∧
          ∀ a, (∀ i ∈ l, ¬ Ss i a) → get m' a = get m a := by
      intro l
      induction l with
      | nil =>
        exact fun _ => ⟨0, fun fuel _ m _ _ => ⟨m, rfl, by simp, fun _ _ => rfl⟩⟩
      | cons i l ihl =>
        intro hnd
        obtain ⟨N2, h2⟩ := ihl (List.nodup_cons.mp hnd).2
        have hil := (List.nodup_cons.mp hnd).1
        have hsame := same i
        cases hf : f i with
        | none =>
          rw [hf] at hsame
          have hq : ptr i = Option.none := by simpa using hsame
          refine ⟨N2, fun fuel hfu m hp hm => ?_⟩
          obtain ⟨m', e1, e2, e3⟩ := h2 fuel hfu m hp fun j hj => hm j (List.mem_cons_of_mem _ hj)
          refine ⟨m', ?_, ?_, ?_⟩
          · simp only [List.foldlM_cons, destroyNext, load_ok hp, Out.bind_ok, hq, Out.pure_eq]
            exact e1
          · intro j hj a ha
            rcases List.mem_cons.mp hj with rfl | hj
            · exact absurd ha (none j hf a)
            · exact e2 j hj a ha
          · exact fun a ha => e3 a fun j hj => ha j (List.mem_cons_of_mem _ hj)
        | some c =>
          rw [hf] at hsame
          obtain ⟨q, hq⟩ := Option.isSome_iff_exists.mp hsame
          obtain ⟨N1, h1⟩ := ih i c q hf hq
          refine ⟨max N1 N2, fun fuel hfu m hp hm => ?_⟩
          obtain ⟨m1, e1, e2, e3⟩ := h1 fuel (by omega) m (hm i List.mem_cons_self)
          obtain ⟨m', f1, f2, f3⟩ := h2 fuel (by omega) m1
            (by rw [e3 p fun h => apart i p h rfl, hp])
            (fun j hj a ha => by
              rw [e3 a fun h => hil (disjoint j i a ha h ▸ hj)]
              exact hm j (List.mem_cons_of_mem _ hj) a ha)
          refine ⟨m', ?_, ?_, ?_⟩
          · simp only [List.foldlM_cons, destroyNext, load_ok hp, Out.bind_ok, hq, e1]
            exact f1
          · intro j hj a ha
            rcases List.mem_cons.mp hj with rfl | hj
            · rw [f3 a fun l hl h => hil (disjoint j l a ha h ▸ hl)]
              exact e2 a ha
            · exact f2 j hj a ha
          · intro a ha
            rw [f3 a fun j hj => ha j (List.mem_cons_of_mem _ hj)]
            exact e3 a (ha i List.mem_cons_self)
    obtain ⟨N, hN⟩ := hloop (List.finRange 92) (List.nodup_finRange 92)
    refine ⟨N + 1, fun fuel hfu m hm => ?_⟩
    obtain ⟨fuel, rfl⟩ : ∃ k, fuel = k + 1 := ⟨fuel - 1, by omega⟩
    obtain ⟨m1, e1, e2, e3⟩ := hN fuel (by omega) m
      ((hm p ((all p).mpr (.inl rfl))).trans here)
      (fun i _ a ha => hm a ((all a).mpr (.inr ⟨i, ha⟩)))
    have hp1 : get m1 p = some ⟨t, k, d, ptr⟩ := by
      rw [e3 p fun i _ h => apart i p h rfl]
      exact (hm p ((all p).mpr (.inl rfl))).trans here
    obtain ⟨m', f1, f2⟩ := free_ok hp1
    refine ⟨m', ?_, ?_, ?_⟩
    · simp only [destroyRec]
      rw [e1]
      exact f1
    · intro a ha
      rw [f2]
      by_cases hap : a = p
      · rw [if_pos hap]
      · rw [if_neg hap]
        rcases (all a).mp ha with h | ⟨i, h⟩
        · exact absurd h hap
        · exact e2 i (List.mem_finRange i) a h
    · intro a ha
      rw [f2, if_neg fun e => ha ((all a).mpr (.inl e))]
      exact e3 a fun i _ h => ha ((all a).mpr (.inr ⟨i, h⟩))

end Verif
