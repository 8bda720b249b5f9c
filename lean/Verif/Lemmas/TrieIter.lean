import Verif.Model.TrieIter
import Verif.Lemmas.Trie

/-! Helper lemmas about the iteration over a trie. -/

namespace Verif.TIter
open Trie
variable {α : Type}

/-- Alphabetical order: a proper prefix comes first, else the first different character decides. -/
def before : Str → Str → Bool
  | _, [] => false
  | [], _ :: _ => true
  | c :: s, d :: t => c.toNat < d.toNat || (c == d && before s t)

theorem walk_append (n : TNode α) (s u : Str) : walk n (s ++ u) = (walk n s).bind (walk · u) := by
  induction s generalizing n with
  | nil => rfl
  | cons c cs ih =>
    simp only [List.cons_append, walk]
    cases charIndex c with
    | none => rfl
    | some i =>
      cases h : n.next i with
      | none => simp [h]
      | some m => simp [h, ih]

theorem walk_snoc {n nd m : TNode α} {s : Str} {c : Char} {i : Fin 92} (h : walk n s = some nd)
    (hc : charIndex c = some i) (hm : nd.next i = some m) : walk n (s ++ [c]) = some m := by
  rw [walk_append, h]; simp [walk, hc, hm]

theorem charIndex_ofNat (i : Fin 92) : charIndex (Char.ofNat (i.val + 33)) = some i := by
  revert i; decide +kernel

theorem char_toNat_inj {c d : Char} (h : c.toNat = d.toNat) : c = d := by
  apply Char.ext; exact UInt32.toNat_inj.mp h

/-- The iterator after it has returned the string `s`. -/
def canon (root : TNode α) (s : Str) : TIter α :=
  ⟨fun k => match k with | 0 => '\x00' | k + 1 => s.getD k '\x00',
   fun k => if k ≤ s.length then walk root (s.take k) else none⟩

theorem put_push {root m : TNode α} {s : Str} {c : Char} (hs : s.length + 1 < maxDepth)
    (h : walk root (s ++ [c]) = some m) :
    (canon root s).put (s.length + 1) (some m) c = .ok (canon root (s ++ [c])) := by
  unfold put
  rw [if_pos hs]
  congr 1
  simp only [canon, TIter.mk.injEq]
  constructor
  · funext j
    cases j with
    | zero => simp
    | succ j =>
      by_cases hj : j = s.length
      · subst hj; simp
      · by_cases hlt : j < s.length
        · simp [hj, List.getElem?_append, hlt]
        · have h1 : s.length ≤ j := by omega
          simp only [Nat.add_right_cancel_iff, hj, if_false, List.getD_eq_getElem?_getD]
          rw [List.getElem?_eq_none h1, List.getElem?_eq_none (by simp; omega)]
  · funext j
    by_cases hj : j = s.length + 1
    · subst hj
      have : (s ++ [c]).take (s.length + 1) = s ++ [c] := List.take_of_length_le (by simp)
      simp [this, h]
    · by_cases hle : j ≤ s.length
      · have : j ≤ s.length + 1 := by omega
        simp [hj, hle, this, List.take_append_of_le_length hle]
      · have : ¬ j ≤ s.length + 1 := by omega
        simp [hj, hle, this]

theorem put_pop {root : TNode α} {s : Str} {c : Char} (hs : s.length + 1 < maxDepth) :
    (canon root (s ++ [c])).put (s.length + 1) none '\x00' = .ok (canon root s) := by
  unfold put
  rw [if_pos hs]
  congr 1
  simp only [canon, TIter.mk.injEq]
  constructor
  · funext j
    cases j with
    | zero => simp
    | succ j =>
      by_cases hj : j = s.length
      · subst hj; simp
      · by_cases hlt : j < s.length
        · simp [hj, List.getElem?_append, hlt]
        · have h1 : s.length ≤ j := by omega
          simp only [Nat.add_right_cancel_iff, hj, if_false, List.getD_eq_getElem?_getD]
          rw [List.getElem?_eq_none h1, List.getElem?_eq_none (by simp; omega)]
  · funext j
    by_cases hj : j = s.length + 1
    · subst hj
      simp
    · by_cases hle : j ≤ s.length
      · have : j ≤ s.length + 1 := by omega
        simp [hj, hle, this, List.take_append_of_le_length hle]
      · have : ¬ j ≤ s.length + 1 := by omega
        simp [hj, hle, this]

theorem node_canon {root : TNode α} {s : Str} (hs : s.length + 1 ≤ maxDepth) :
    (canon root s).node (s.length + 1 - 1) = .ok (walk root s) := by
  have : s.length < maxDepth := by omega
  simp [node, canon, this]

/-- Strings below a node a search considers: the node itself if allowed, and those that begin with a character
from number `b` on. -/
def Cand (nd : TNode α) (b : Nat) (self : Bool) (u : Str) : Prop :=
  mem nd u = true ∧ ((u = [] ∧ self = true) ∨ ∃ c r, u = c :: r ∧ b + 33 ≤ c.toNat)

/-- Outcome of a search for the first of the strings in `P`, below the path `s`. -/
inductive Found (root : TNode α) (s : Str) (P : Str → Prop) : Res (TIter α × Option (TNode α)) → Prop
  | tooLong (u : Str) : P u → 29 ≤ (s ++ u).length → Found root s P .defect
  | nothing : (∀ u, ¬ P u) → Found root s P (.ok (canon root s, none))
  | first (u : Str) (m : TNode α) : P u → walk root (s ++ u) = some m → (s ++ u).length ≤ 28 →
      (∀ v, P v → v = u ∨ before u v = true) → Found root s P (.ok (canon root (s ++ u), some m))

theorem cand_next {nd m : TNode α} {i : Fin 92} (h : nd.next i = some m) {c : Char}
    (hc : charIndex c = some i) (u : Str) : mem nd (c :: u) = mem m u := by
  rw [mem_cons, hc]; simp [h]

theorem mem_head {nd : TNode α} {c : Char} {u : Str} (h : mem nd (c :: u) = true) :
    ∃ i m, charIndex c = some i ∧ nd.next i = some m ∧ mem m u = true := by
  rw [mem_cons] at h
  cases hc : charIndex c with
  | none => simp [hc] at h
  | some i =>
    simp only [hc] at h
    cases hn : nd.next i with
    | none => simp [hn] at h
    | some m => exact ⟨i, m, rfl, hn, by simpa [hn] using h⟩

theorem findLoop_found {root : TNode α} (rec : TIter α → Res (TIter α × Option (TNode α))) {s : Str}
    (hs : s.length + 1 < maxDepth) {nd : TNode α} (hw : walk root s = some nd) {b : Bool} (hwf : WF b nd)
    (hrec : ∀ c i m, charIndex c = some i → nd.next i = some m → WF true m →
      Found root (s ++ [c]) (Cand m 0 true) (rec (canon root (s ++ [c]))))
    (n : Nat) (hn : n ≤ 92) :
    Found root s (Cand nd (92 - n) false) (findLoop rec (s.length + 1) n (canon root s)) := by
  induction n with
  | zero =>
    refine .nothing ?_
    rintro u ⟨hm, (⟨_, h⟩ | ⟨c, r, rfl, hc⟩)⟩
    · exact absurd h (by simp)
    · have := (mem_legal hm c List.mem_cons_self).2
      omega
  | succ n ih =>
    have ih := ih (by omega)
    have hlt : 92 - (n + 1) < 92 := by omega
    unfold findLoop
    rw [node_canon (by omega), hw]
    simp only [Res.bind_ok, hlt, dif_pos]
    generalize hi : (⟨92 - (n + 1), hlt⟩ : Fin 92) = i
    have hiv : i.val = 92 - (n + 1) := by rw [← hi]
    have hcc := charIndex_ofNat i
    rw [hiv] at hcc
    have hchr : (Char.ofNat (92 - (n + 1) + 33)).toNat = 92 - (n + 1) + 33 := by
      have := charIndex_eq_some.mp hcc; omega
    generalize Char.ofNat (92 - (n + 1) + 33) = c at hcc hchr
    -- candidates of this step that are none of the later ones begin with `c`
    have split : ∀ u, Cand nd (92 - (n + 1)) false u →
        Cand nd (92 - n) false u ∨ ∃ r m, u = c :: r ∧ nd.next i = some m ∧ mem m r = true := by
      rintro u ⟨hm, (⟨_, h⟩ | ⟨d, r, rfl, hd⟩)⟩
      · exact absurd h (by simp)
      · by_cases he : d.toNat = c.toNat
        · have := char_toNat_inj he
          subst this
          obtain ⟨j, m, h1, h2, h3⟩ := mem_head hm
          rw [hcc] at h1
          obtain rfl := Option.some.inj h1
          exact .inr ⟨r, m, rfl, h2, h3⟩
        · exact .inl ⟨hm, .inr ⟨d, r, rfl, by omega⟩⟩
    have wider : ∀ u, Cand nd (92 - n) false u → Cand nd (92 - (n + 1)) false u := by
      rintro u ⟨hm, (⟨_, h⟩ | ⟨d, r, rfl, hd⟩)⟩
      · exact absurd h (by simp)
      · exact ⟨hm, .inr ⟨d, r, rfl, by omega⟩⟩
    cases hnx : nd.next i with
    | none =>
      dsimp only
      have : Cand nd (92 - (n + 1)) false = Cand nd (92 - n) false := by
        funext u
        refine propext ⟨fun h => ?_, wider u⟩
        rcases split u h with h | ⟨r, m, _, h2, _⟩
        · exact h
        · rw [hnx] at h2; cases h2
      rw [this]; exact ih
    | some m =>
      dsimp only
      have hsub : WF true m := by
        cases hwf with
        | mk hk hleaf hsub => exact hsub i m hnx
      rw [put_push hs (walk_snoc hw hcc hnx)]
      simp only [Res.bind_ok]
      have hf := hrec c i m hcc hnx hsub
      generalize hres : rec (canon root (s ++ [c])) = res at hf
      cases hf with
      | tooLong u hu hl =>
        refine .tooLong (c :: u) ⟨?_, .inr ⟨c, u, rfl, by omega⟩⟩ (by simpa [Nat.add_comm, Nat.add_left_comm] using hl)
        rw [cand_next hnx hcc]; exact hu.1
      | nothing hno =>
        exfalso
        obtain ⟨u, hu⟩ := hsub.exists_mem
        refine hno u ⟨hu, ?_⟩
        cases u with
        | nil => exact .inl ⟨rfl, rfl⟩
        | cons d r =>
          have := (mem_legal hu d List.mem_cons_self).1
          exact .inr ⟨d, r, rfl, by omega⟩
      | first u m' hu hwu hl hmin =>
        simp only [Res.bind_ok]
        have e : s ++ [c] ++ u = s ++ c :: u := by simp
        rw [e] at hwu hl ⊢
        refine .first (c :: u) m' ⟨?_, .inr ⟨c, u, rfl, by omega⟩⟩ hwu hl ?_
        · rw [cand_next hnx hcc]; exact hu.1
        · intro v hv
          rcases split v hv with ⟨_, (⟨_, h⟩ | ⟨d, r, rfl, hd⟩)⟩ | ⟨r, m2, rfl, h2, h3⟩
          · exact absurd h (by simp)
          · right
            have : c.toNat < d.toNat := by omega
            simp [before, this]
          · rw [hnx] at h2
            obtain rfl := Option.some.inj h2
            have : Cand m 0 true r := by
              refine ⟨h3, ?_⟩
              cases r with
              | nil => exact .inl ⟨rfl, rfl⟩
              | cons d r =>
                have := (mem_legal h3 d List.mem_cons_self).1
                exact .inr ⟨d, r, rfl, by omega⟩
            rcases hmin r this with rfl | h
            · exact .inl rfl
            · right; simp [before, h]

theorem find_found {root : TNode α} (room : Nat) {s : Str} (hs : s.length + 1 + room = maxDepth)
    {nd : TNode α} (hw : walk root s = some nd) {wb : Bool} (hwf : WF wb nd) (b : Nat) (self : Bool)
    (hlong : 29 ≤ s.length → ∃ u, Cand nd b self u) :
    Found root s (Cand nd b self) (findTerminal room (s.length + 1) b self (canon root s)) := by
  induction room generalizing s nd wb b self with
  | zero =>
    have : s.length = 29 := by simp only [maxDepth] at hs; omega
    obtain ⟨u, hu⟩ := hlong (by omega)
    exact .tooLong u hu (by simp; omega)
  | succ room ih =>
    unfold findTerminal
    rw [node_canon (by omega), hw]
    simp only [Res.bind_ok]
    split
    · rename_i h
      simp only [Bool.and_eq_true] at h
      have hm : mem nd [] = true := by rw [mem_nil]; exact h.2
      have := Found.first (root := root) (s := s) (P := Cand nd b self) [] nd ⟨hm, .inl ⟨rfl, h.1⟩⟩ (by simpa using hw)
        (by simp only [maxDepth] at hs; simp; omega)
        (by
          intro v hv
          cases v with
          | nil => exact .inl rfl
          | cons c r => exact .inr rfl)
      simpa using this
    · rename_i h
      have hb : Cand nd b self = Cand nd (92 - (92 - b)) false := by
        funext u
        refine propext ⟨?_, ?_⟩
        · rintro ⟨hm, (⟨rfl, h2⟩ | ⟨c, r, rfl, hc⟩)⟩
          · rw [mem_nil] at hm
            exact absurd (by simp [h2, hm]) h
          · exact ⟨hm, .inr ⟨c, r, rfl, by omega⟩⟩
        · rintro ⟨hm, (⟨_, h2⟩ | ⟨c, r, rfl, hc⟩)⟩
          · exact absurd h2 (by simp)
          · have := (mem_legal hm c List.mem_cons_self).2
            refine ⟨hm, .inr ⟨c, r, rfl, by omega⟩⟩
      rw [hb]
      refine findLoop_found _ (by simp only [maxDepth] at hs ⊢; omega) hw hwf ?_ _ (by omega)
      intro c i m hc hm hwm
      have := ih (s := s ++ [c]) (by simp; omega) (walk_snoc hw hc hm) hwm 0 true (by
        intro _
        obtain ⟨u, hu⟩ := hwm.exists_mem
        refine ⟨u, hu, ?_⟩
        cases u with
        | nil => exact .inl ⟨rfl, rfl⟩
        | cons d r =>
          have := (mem_legal hu d List.mem_cons_self).1
          exact .inr ⟨d, r, rfl, by omega⟩)
      simpa using this

/-! ## One step -/

theorem before_irrefl (s : Str) : before s s = false := by
  induction s with
  | nil => rfl
  | cons c s ih => simp [before, ih]

theorem before_trans {s t u : Str} (h1 : before s t = true) (h2 : before t u = true) : before s u = true := by
  induction s generalizing t u with
  | nil =>
    cases u with
    | nil => cases t <;> simp [before] at h2
    | cons => rfl
  | cons c s ih =>
    cases t with
    | nil => simp [before] at h1
    | cons d t =>
      cases u with
      | nil => simp [before] at h2
      | cons e u =>
        simp only [before, Bool.or_eq_true, Bool.and_eq_true, decide_eq_true_eq, beq_iff_eq] at h1 h2 ⊢
        rcases h1 with h1 | ⟨rfl, h1⟩
        · rcases h2 with h2 | ⟨rfl, h2⟩
          · left; omega
          · exact .inl h1
        · rcases h2 with h2 | ⟨rfl, h2⟩
          · exact .inl h2
          · exact .inr ⟨rfl, ih h1 h2⟩

theorem before_append (p s t : Str) : before (p ++ s) (p ++ t) = before s t := by
  induction p with
  | nil => rfl
  | cons c p ih => simp [before, ih]

/-- `t` differs from `s` first at a character that is larger. -/
def Later (s t : Str) : Prop :=
  ∃ p c r d u, s = p ++ c :: r ∧ t = p ++ d :: u ∧ c.toNat < d.toNat

theorem before_iff (s t : Str) : before s t = true ↔ (∃ u, u ≠ [] ∧ t = s ++ u) ∨ Later s t := by
  constructor
  · induction s generalizing t with
    | nil =>
      intro h
      cases t with
      | nil => simp [before] at h
      | cons d t => exact .inl ⟨d :: t, by simp, rfl⟩
    | cons c s ih =>
      intro h
      cases t with
      | nil => simp [before] at h
      | cons d t =>
        simp only [before, Bool.or_eq_true, Bool.and_eq_true, decide_eq_true_eq, beq_iff_eq] at h
        rcases h with h | ⟨rfl, h⟩
        · exact .inr ⟨[], c, s, d, t, rfl, rfl, h⟩
        · rcases ih t h with ⟨u, hu, rfl⟩ | ⟨p, a, r, b, u, rfl, rfl, hl⟩
          · exact .inl ⟨u, hu, rfl⟩
          · exact .inr ⟨c :: p, a, r, b, u, rfl, rfl, hl⟩
  · rintro (⟨u, hu, rfl⟩ | ⟨p, a, r, b, u, rfl, rfl, hl⟩)
    · have := before_append s [] u
      rw [List.append_nil] at this
      rw [this]
      cases u with
      | nil => exact absurd rfl hu
      | cons => rfl
    · rw [before_append]; simp [before, hl]

theorem later_snoc (s : Str) (c : Char) (t : Str) :
    Later (s ++ [c]) t ↔ (∃ d u, t = s ++ d :: u ∧ c.toNat < d.toNat) ∨ Later s t := by
  constructor
  · rintro ⟨p, a, r, b, u, h1, rfl, hl⟩
    rcases List.eq_nil_or_concat r with rfl | ⟨r', x, rfl⟩
    · obtain ⟨rfl, h⟩ := List.append_inj' h1 rfl
      cases h
      exact .inl ⟨b, u, rfl, hl⟩
    · have h1' : s ++ [c] = (p ++ a :: r') ++ [x] := by simpa using h1
      obtain ⟨rfl, _⟩ := List.append_inj' h1' rfl
      exact .inr ⟨p, a, r', b, u, rfl, rfl, hl⟩
  · rintro (⟨d, u, rfl, hl⟩ | ⟨p, a, r, b, u, rfl, rfl, hl⟩)
    · exact ⟨s, c, [], d, u, rfl, rfl, hl⟩
    · exact ⟨p, a, r ++ [c], b, u, by simp, rfl, hl⟩

theorem wf_walk {root : TNode α} {b : Bool} (h : WF b root) {s : Str} {nd : TNode α}
    (hw : walk root s = some nd) : ∃ b', WF b' nd := by
  induction s generalizing root b with
  | nil => exact ⟨b, by obtain rfl := Option.some.inj hw; exact h⟩
  | cons c s ih =>
    simp only [walk] at hw
    cases hc : charIndex c with
    | none => simp [hc] at hw
    | some i =>
      simp only [hc] at hw
      cases hn : root.next i with
      | none => simp [hn] at hw
      | some m =>
        simp only [hn] at hw
        cases h with
        | mk hk hleaf hsub => exact ih (hsub i m hn) hw

theorem mem_append {root nd : TNode α} {s : Str} (hw : walk root s = some nd) (u : Str) :
    mem root (s ++ u) = mem nd u := by
  unfold mem; rw [walk_append, hw]; rfl

/-- Outcome of the search for the first string of `P`, paths from the root. -/
inductive Step (root : TNode α) (P : Str → Prop) (e : TIter α) : Res (TIter α × Option (TNode α)) → Prop
  | tooLong (u : Str) : P u → 29 ≤ u.length → Step root P e .defect
  | nothing : (∀ u, ¬ P u) → Step root P e (.ok (e, none))
  | first (u : Str) (m : TNode α) : P u → walk root u = some m → u.length ≤ 28 →
      (∀ v, P v → v = u ∨ before u v = true) → Step root P e (.ok (canon root u, some m))

theorem Found.step {root : TNode α} {s : Str} {P Q : Str → Prop} {r} (h : Found root s P r)
    (hq : ∀ v, Q v ↔ ∃ u, v = s ++ u ∧ P u) : Step root Q (canon root s) r := by
  cases h with
  | tooLong u hu hl => exact .tooLong (s ++ u) ((hq _).mpr ⟨u, rfl, hu⟩) hl
  | nothing h =>
    refine .nothing ?_
    intro v hv
    obtain ⟨u, rfl, hu⟩ := (hq v).mp hv
    exact h u hu
  | first u m hu hw hl hmin =>
    refine .first (s ++ u) m ((hq _).mpr ⟨u, rfl, hu⟩) hw hl ?_
    intro v hv
    obtain ⟨w, rfl, hw⟩ := (hq v).mp hv
    rcases hmin w hw with rfl | h
    · exact .inl rfl
    · right; rw [before_append]; exact h

theorem walk_prefix {root m : TNode α} {s u : Str} (h : walk root (s ++ u) = some m) :
    ∃ nd, walk root s = some nd := by
  rw [walk_append] at h
  cases hs : walk root s with
  | none => simp [hs] at h
  | some nd => exact ⟨nd, rfl⟩

theorem str_canon (root : TNode α) (s : Str) (c : Char) : (canon root (s ++ [c])).str (s.length + 1) = c := by
  simp [canon]

theorem walk_head_legal {root m : TNode α} {s : Str} {c : Char} (h : walk root (s ++ [c]) = some m) :
    33 ≤ c.toNat ∧ c.toNat < 125 := by
  obtain ⟨nd, hnd⟩ := walk_prefix h
  rw [walk_append, hnd] at h
  simp only [Option.bind_some, walk] at h
  cases hc : charIndex c with
  | none => simp [hc] at h
  | some i =>
    have := charIndex_eq_some.mp hc
    have := i.isLt
    omega

theorem switch_step {root : TNode α} {b : Bool} (hwf : WF b root) (s : Str) (hs : s.length ≤ 28)
    {nd : TNode α} (hw : walk root s = some nd) :
    Step root (fun t => mem root t = true ∧ Later s t) (canon root []) (switchLoop s.length (canon root s)) := by
  induction hk : s.length generalizing s nd with
  | zero =>
    have := List.eq_nil_of_length_eq_zero hk
    subst this
    refine .nothing ?_
    rintro u ⟨_, p, c, r, d, v, h, _⟩
    simp at h
  | succ k ih =>
    rcases List.eq_nil_or_concat s with rfl | ⟨s', c, rfl⟩
    · simp at hk
    · rw [List.concat_eq_append] at *
      have hk' : s'.length = k := by simpa using hk
      subst hk'
      obtain ⟨nd', hw'⟩ := walk_prefix hw
      have hleg := walk_head_legal hw
      simp only [List.length_append, List.length_cons, List.length_nil] at hs
      have hs28 : s'.length ≤ 28 := by omega
      obtain ⟨b', hwf'⟩ := wf_walk hwf hw'
      unfold switchLoop
      simp only [str_canon]
      rw [put_pop (by simp only [maxDepth]; omega)]
      simp only [Res.bind_ok]
      have hf := find_found (root := root) (maxDepth - (s'.length + 1)) (s := s')
        (by simp only [maxDepth]; omega) hw' hwf' (c.toNat - 33 + 1) false (by omega)
      have hf := hf.step (Q := fun t => mem root t = true ∧ ∃ d u, t = s' ++ d :: u ∧ c.toNat < d.toNat) (by
        intro v
        constructor
        · rintro ⟨hm, d, u, rfl, hl⟩
          rw [mem_append hw'] at hm
          exact ⟨d :: u, rfl, hm, .inr ⟨d, u, rfl, by omega⟩⟩
        · rintro ⟨u, rfl, hm, (⟨_, h⟩ | ⟨d, r, rfl, hd⟩)⟩
          · simp at h
          · refine ⟨by rw [mem_append hw']; exact hm, d, r, rfl, by omega⟩)
      generalize findTerminal (maxDepth - (s'.length + 1)) (s'.length + 1) (c.toNat - 33 + 1) false
        (canon root s') = res at hf
      cases hf with
      | tooLong u hu hl =>
        exact .tooLong u ⟨hu.1, (later_snoc s' c u).mpr (.inl hu.2)⟩ hl
      | nothing hno =>
        simp only [Res.bind_ok]
        have e : (fun t => mem root t = true ∧ Later (s' ++ [c]) t) = fun t => mem root t = true ∧ Later s' t := by
          funext t
          refine propext ⟨?_, fun h => ⟨h.1, (later_snoc s' c t).mpr (.inr h.2)⟩⟩
          rintro ⟨h1, h2⟩
          rcases (later_snoc s' c t).mp h2 with h | h
          · exact absurd ⟨h1, h⟩ (hno t)
          · exact ⟨h1, h⟩
        rw [e]
        exact ih s' hs28 hw' rfl
      | first u m hu hwu hl hmin =>
        simp only [Res.bind_ok]
        refine .first u m ⟨hu.1, (later_snoc s' c u).mpr (.inl hu.2)⟩ hwu hl ?_
        rintro v ⟨h1, h2⟩
        rcases (later_snoc s' c v).mp h2 with h | ⟨p, a, r, x, w, rfl, rfl, hlt⟩
        · exact hmin v ⟨h1, h⟩
        · right
          obtain ⟨d, q, rfl, _⟩ := hu.2
          rw [List.append_assoc, before_append]
          simp [before, hlt]

theorem depth_canon {root : TNode α} {s : Str} {nd : TNode α} (hw : walk root s = some nd) (k n : Nat)
    (hk : k ≤ s.length + 1) (hn : s.length + 1 - k < n) :
    depthFrom (canon root s) n k = .ok (s.length + 1) := by
  induction n generalizing k with
  | zero => omega
  | succ n ih =>
    unfold depthFrom
    by_cases he : k = s.length + 1
    · subst he
      have : (canon root s).nodes (s.length + 1) = none := by
        have : ¬ s.length + 1 ≤ s.length := by omega
        simp only [canon, this, if_false]
      rw [this]
    · have hle : k ≤ s.length := by omega
      obtain ⟨m, hm⟩ : ∃ m, walk root (s.take k) = some m := by
        apply walk_prefix (u := s.drop k) (m := nd)
        rw [List.take_append_drop]; exact hw
      have : (canon root s).nodes k = some m := by simp [canon, hle, hm]
      rw [this]
      exact ih (k + 1) (by omega) (by omega)

theorem put_root (root : TNode α) : (start : TIter α).put 0 (some root) ((start : TIter α).str 0) = .ok (canon root []) := by
  unfold put
  rw [if_pos (by decide)]
  congr 1
  simp only [canon, TIter.mk.injEq]
  constructor
  · funext j
    cases j <;> simp [start]
  · funext j
    cases j <;> simp [start, walk]

theorem put_unroot (root : TNode α) :
    (canon root []).put 0 none ((canon root []).str 0) = .ok (start : TIter α) := by
  unfold put
  rw [if_pos (by decide)]
  congr 1
  simp only [start, TIter.mk.injEq]
  constructor
  · funext j
    cases j <;> simp [canon]
  · funext j
    cases j <;> simp [canon]

/-- The first call finds the first string. -/
theorem getNext_start {t : Trie α} {b : Bool} (hwf : WF b t.root) :
    Step t.root (fun u => mem t.root u = true) start (getNext t start) := by
  have hd : depthFrom (start : TIter α) maxDepth 0 = .ok 0 := rfl
  unfold getNext
  rw [hd]
  simp only [Res.bind_ok, if_true]
  rw [put_root]
  simp only [Res.bind_ok]
  have hf := find_found (root := t.root) (maxDepth - 1) (s := []) (by decide) rfl hwf 0 true (by simp)
  have hf := hf.step (Q := fun u => mem t.root u = true) (by
    intro v
    constructor
    · intro h
      refine ⟨v, rfl, h, ?_⟩
      cases v with
      | nil => exact .inl ⟨rfl, rfl⟩
      | cons c r =>
        have := (mem_legal h c List.mem_cons_self).1
        exact .inr ⟨c, r, rfl, by omega⟩
    · rintro ⟨u, rfl, h, _⟩
      exact h)
  simp only [List.length_nil, Nat.zero_add] at hf
  generalize findTerminal (maxDepth - 1) 1 0 true (canon t.root []) = res at hf
  cases hf with
  | tooLong u hu hl => exact .tooLong u hu hl
  | nothing hno =>
    simp only [Res.bind_ok]
    rw [put_unroot]
    exact .nothing hno
  | first u m hu hwu hl hmin => exact .first u m hu hwu hl hmin

/-- A later call finds the string that follows the last one. -/
theorem getNext_step {t : Trie α} {b : Bool} (hwf : WF b t.root) {s : Str} (hs : s.length ≤ 28)
    {nd : TNode α} (hw : walk t.root s = some nd) :
    Step t.root (fun u => mem t.root u = true ∧ before s u = true) start (getNext t (canon t.root s)) := by
  have hd := depth_canon hw 0 maxDepth (by omega) (by simp only [maxDepth]; omega)
  obtain ⟨b', hwf'⟩ := wf_walk hwf hw
  unfold getNext
  rw [hd]
  simp only [Res.bind_ok, Nat.add_eq_zero_iff, Nat.one_ne_zero, and_false, if_false]
  have hf := find_found (root := t.root) (maxDepth - (s.length + 1)) (s := s) (by simp only [maxDepth]; omega)
    hw hwf' 0 false (by omega)
  have hf := hf.step (Q := fun v => mem t.root v = true ∧ ∃ u, u ≠ [] ∧ v = s ++ u) (by
    intro v
    constructor
    · rintro ⟨h, u, hu, rfl⟩
      rw [mem_append hw] at h
      refine ⟨u, rfl, h, ?_⟩
      cases u with
      | nil => exact absurd rfl hu
      | cons c r =>
        have := (mem_legal h c List.mem_cons_self).1
        exact .inr ⟨c, r, rfl, by omega⟩
    · rintro ⟨u, rfl, h, (⟨_, h'⟩ | ⟨d, r, rfl, _⟩)⟩
      · simp at h'
      · exact ⟨by rw [mem_append hw]; exact h, _, by simp, rfl⟩)
  generalize findTerminal (maxDepth - (s.length + 1)) (s.length + 1) 0 false (canon t.root s) = res at hf
  cases hf with
  | tooLong u hu hl => exact .tooLong u ⟨hu.1, (before_iff s u).mpr (.inl hu.2)⟩ hl
  | nothing hno =>
    simp only [Res.bind_ok, Nat.add_sub_cancel]
    have hsw := switch_step hwf s hs hw
    have e : (fun u => mem t.root u = true ∧ before s u = true) = fun u => mem t.root u = true ∧ Later s u := by
      funext u
      refine propext ⟨?_, fun h => ⟨h.1, (before_iff s u).mpr (.inr h.2)⟩⟩
      rintro ⟨h1, h2⟩
      rcases (before_iff s u).mp h2 with h | h
      · exact absurd ⟨h1, h⟩ (hno u)
      · exact ⟨h1, h⟩
    rw [e]
    generalize switchLoop s.length (canon t.root s) = res at hsw
    cases hsw with
    | tooLong u hu hl => exact .tooLong u hu hl
    | nothing hno => exact .nothing hno
    | first u m hu hwu hl hmin => exact .first u m hu hwu hl hmin
  | first u m hu hwu hl hmin =>
    refine .first u m ⟨hu.1, (before_iff s u).mpr (.inl hu.2)⟩ hwu hl ?_
    rintro v ⟨h1, h2⟩
    rcases (before_iff s v).mp h2 with h | ⟨p, a, r, x, w, rfl, rfl, hlt⟩
    · exact hmin v ⟨h1, h⟩
    · right
      obtain ⟨q, _, rfl⟩ := hu.2
      rw [List.append_assoc, before_append]
      simp [before, hlt]

theorem read_canon (root : TNode α) (s : Str) (hl : ∀ c ∈ s, c ≠ '\x00') (k n : Nat) (hk : k ≤ s.length)
    (hn : s.length - k < n) : readFrom (canon root s) n (k + 1) = .ok (s.drop k) := by
  induction n generalizing k with
  | zero => omega
  | succ n ih =>
    unfold readFrom
    by_cases he : k = s.length
    · subst he
      simp [canon]
    · have hlt : k < s.length := by omega
      have hc : (canon root s).str (k + 1) = s[k] := by simp [canon, hlt]
      rw [hc, if_neg (hl _ (List.getElem_mem hlt)), ih (k + 1) (by omega) (by omega)]
      simp

theorem current_canon {root : TNode α} {s : Str} (hs : s.length ≤ 28) (hm : mem root s = true) :
    (canon root s).currentString = .ok (some s) := by
  have hl : ∀ c ∈ s, c ≠ '\x00' := by
    intro c hc h0
    subst h0
    have := (mem_legal hm _ hc).1
    revert this; decide
  have h0 : (canon root s).nodes 0 = some root := by simp [canon, walk]
  unfold currentString
  rw [h0]
  simp only
  rw [read_canon root s hl 0 _ (by omega) (by simp only [maxDepth]; omega)]
  simp

end Verif.TIter
