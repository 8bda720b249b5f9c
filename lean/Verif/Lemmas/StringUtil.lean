import Verif.Model.StringUtil
import Verif.Spec.Text
import Verif.Lemmas.RuleParsing

/-!
# Lemmas on cutting strings in place
-/

namespace Verif
open TextSpec

/-- At `off` there is a string, NUL-terminated inside the block. -/
structure StrAt (mem : Str) (off : Nat) (s : Str) : Prop where
  real : nul ∉ s
  here : ∃ post, mem.drop off = s ++ nul :: post

theorem StrAt.cstr {mem : Str} {off : Nat} {s : Str} (h : StrAt mem off s) : cstrAt mem off = s := by
  obtain ⟨hn, post, hp⟩ := h
  rw [cstrAt, hp, cstr_of hn]

theorem StrAt.le {mem : Str} {off : Nat} {s : Str} (h : StrAt mem off s) : off + s.length < mem.length := by
  obtain ⟨hn, post, hp⟩ := h
  have := congrArg List.length hp
  simp at this
  omega

theorem StrAt.split {mem : Str} {off : Nat} {s : Str} (h : StrAt mem off s) :
    ∃ post, mem = mem.take off ++ s ++ nul :: post ∧ (mem.take off).length = off := by
  obtain ⟨hn, post, hp⟩ := h
  have := List.take_append_drop off mem
  rw [hp] at this
  have hl := (StrAt.mk hn ⟨post, hp⟩).le
  exact ⟨post, by rw [List.append_assoc]; exact this.symm, by simp; omega⟩

theorem StrAt.of_split {pre s post : Str} (hn : nul ∉ s) : StrAt (pre ++ s ++ nul :: post) pre.length s :=
  ⟨hn, post, by rw [List.append_assoc, List.drop_left]⟩

/-- The pieces `ps` are at the offsets `os`, each NUL-terminated before the next one starts. -/
def Layout (mem : Str) : List Nat → List Str → Prop
  | [], [] => True
  | o :: os, p :: ps => StrAt mem o p ∧ (∀ o' ∈ os, o + p.length < o') ∧ Layout mem os ps
  | _, _ => False

theorem Layout.map {mem : Str} : ∀ {os : List Nat} {ps : List Str}, Layout mem os ps → os.map (cstrAt mem) = ps
  | [], [], _ => rfl
  | _ :: _, _ :: _, h => by rw [List.map_cons, h.1.cstr, h.2.2.map]
  | [], _ :: _, h => h.elim
  | _ :: _, [], h => h.elim

theorem strSplit_spec {s : Str} {ds ps : List Str} (hc : Cut s ds ps) : (∀ d ∈ ds, d ≠ []) →
    ∀ (mem : Str) (off : Nat), StrAt mem off s →
    ∃ m os, strSplit mem off ds = (m, os) ∧ m.length = mem.length ∧ m.take off = mem.take off ∧
      m.drop (off + s.length) = mem.drop (off + s.length) ∧ Layout m os ps ∧
      (∀ o ∈ os, off ≤ o ∧ o ≤ off + s.length) := by
  induction hc with
  | done s =>
    intro _ mem off h
    exact ⟨mem, [off], rfl, rfl, rfl, rfl, ⟨h, by simp, trivial⟩, by simp⟩
  | absent ha =>
    intro _ mem off h
    exact ⟨mem, [off], by simp [strSplit, h.cstr, ha.strstr], rfl, rfl, rfl, ⟨h, by simp, trivial⟩, by simp⟩
  | @cut s d ds a b ps hf _ ih =>
    intro hd mem off h
    have hdn : d ≠ [] := hd d (by simp)
    obtain ⟨c, d', rfl⟩ : ∃ c d', d = c :: d' := by
      cases d with
      | nil => exact (hdn rfl).elim
      | cons c d' => exact ⟨c, d', rfl⟩
    obtain ⟨post, hm, hl⟩ := h.split
    have hs := hf.1
    have hreal := h.real
    have hab : nul ∉ a ∧ nul ∉ b := by
      rw [hs] at hreal
      simp only [List.mem_append, not_or] at hreal
      exact ⟨hreal.1.1, hreal.2⟩
    set pre := mem.take off with hpre
    have hset : mem.set (off + a.length) nul = pre ++ a ++ nul :: (d' ++ b ++ nul :: post) := by
      have e : mem = (pre ++ a) ++ (c :: (d' ++ b ++ nul :: post)) := by
        rw [hm, hs]; simp
      rw [e, List.set_append_right _ _ (by simp [hl])]
      simp [hl]
    have hb : StrAt (mem.set (off + a.length) nul) (off + a.length + (c :: d').length) b := by
      refine ⟨hab.2, post, ?_⟩
      have e : mem.set (off + a.length) nul = (pre ++ a ++ nul :: d') ++ (b ++ nul :: post) := by
        rw [hset]; simp
      rw [e, List.drop_left' (by simp [hl]; omega)]
    obtain ⟨m, os, h1, h2, h3, h4, h5, h6⟩ := ih (fun d hd' => hd d (by simp [hd'])) _ _ hb
    have hslen : s.length = a.length + (c :: d').length + b.length := by rw [hs]; simp; omega
    refine ⟨m, off :: os, ?_, ?_, ?_, ?_, ⟨?_, ?_, h5⟩, ?_⟩
    · simp only [strSplit, h.cstr, hf.strstr, h1]
    · rw [h2]; simp
    · have := congrArg (List.take off) h3
      rw [List.take_take, List.take_take, Nat.min_eq_left (by omega)] at this
      rw [this, List.take_set_of_le (by omega)]
    · rw [hslen]
      have e : off + (a.length + (c :: d').length + b.length) = off + a.length + (c :: d').length + b.length := by omega
      rw [e, h4, List.drop_set_of_lt (by simp; omega)]
    · have h7 := congrArg (List.take (off + a.length + 1)) h3
      rw [List.take_take, List.take_take, Nat.min_eq_left (by simp), hset] at h7
      have e : pre ++ a ++ nul :: (d' ++ b ++ nul :: post) = (pre ++ a ++ [nul]) ++ (d' ++ b ++ nul :: post) := by simp
      rw [e, List.take_left' (by simp [hl]; omega)] at h7
      refine ⟨hab.1, m.drop (off + a.length + 1), ?_⟩
      conv_lhs => rw [← List.take_append_drop (off + a.length + 1) m, h7]
      rw [List.append_assoc, List.append_assoc, List.drop_left' hl]
      simp
    · intro o' ho'
      have := h6 o' ho'
      simp only [List.length_cons] at this
      omega
    · intro o ho
      simp only [List.mem_cons] at ho
      rcases ho with rfl | ho
      · omega
      · have := h6 o ho
        omega

theorem stripEnd_spec (mem : Str) : ∀ (k j : Nat), j < k → mem[j]? ≠ some ' ' → k ≤ mem.length →
    ∃ n, j < n ∧ n ≤ k ∧ mem[n - 1]? ≠ some ' ' ∧ (∀ i, n ≤ i → i < k → mem[i]? = some ' ') ∧
      stripEnd mem k = .ok (mem.take n ++ List.replicate (k - n) nul ++ mem.drop k) := by
  intro k
  induction k generalizing mem with
  | zero => intro j hj; omega
  | succ k ih =>
    intro j hj hne hk
    by_cases hsp : mem[k]? = some ' '
    · have hjk : j < k := by
        rcases Nat.lt_or_ge j k with h | h
        · exact h
        · have : j = k := by omega
          exact (hne (this ▸ hsp)).elim
      obtain ⟨n, h1, h2, h3, h4, h5⟩ := ih (mem.set k nul) j hjk (by rwa [List.getElem?_set_ne (by omega)]) (by simp; omega)
      refine ⟨n, h1, by omega, ?_, ?_, ?_⟩
      · rwa [List.getElem?_set_ne (by omega)] at h3
      · intro i hi hik
        rcases Nat.lt_or_ge i k with h | h
        · have := h4 i hi h
          rwa [List.getElem?_set_ne (by omega)] at this
        · have : i = k := by omega
          exact this ▸ hsp
      · rw [stripEnd, if_pos hsp, h5, List.take_set_of_le (by omega)]
        congr 1
        have e1 : (mem.set k nul).drop k = nul :: mem.drop (k + 1) := by
          rw [List.drop_set, if_neg (by omega), Nat.sub_self, List.drop_eq_getElem_cons (by omega)]
          rfl
        rw [e1, show k + 1 - n = (k - n) + 1 by omega, List.replicate_succ']
        simp
    · refine ⟨k + 1, by omega, Nat.le_refl _, by simpa using hsp, fun i h1 h2 => by omega, ?_⟩
      rw [stripEnd, if_neg hsp]
      simp

theorem stripEnd_ub (mem : Str) : ∀ k, (∀ i < k, mem[i]? = some ' ') → stripEnd mem k = .ub := by
  intro k
  induction k generalizing mem with
  | zero => intro _; rfl
  | succ k ih =>
    intro h
    rw [stripEnd, if_pos (h k (by omega))]
    refine ih _ fun i hi => ?_
    rw [List.getElem?_set_ne (by omega)]
    exact h i (by omega)

theorem takeWhile_split (s : Str) : ∃ r, s = s.takeWhile (· == ' ') ++ r ∧ r.head? ≠ some ' ' ∧
    ∀ c ∈ s.takeWhile (· == ' '), c = ' ' := by
  refine ⟨s.dropWhile (· == ' '), List.takeWhile_append_dropWhile.symm, ?_, ?_⟩
  · intro h
    have := List.head?_dropWhile_not (· == ' ') s
    rw [h] at this
    simp at this
  · intro c hc
    have := List.all_takeWhile (p := (· == ' ')) (l := s)
    rw [List.all_eq_true] at this
    simpa using this c hc

/-- What `strip` does to the block. -/
theorem strip_spec {mem : Str} {off : Nat} {s : Str} (h : StrAt mem off s) (hs : s ≠ []) (j : Nat)
    (hj : mem[j]? ≠ some ' ') (hjo : j < off + s.length) :
    ∃ m o t, strip mem off = .ok (m, o) ∧ StrAt m o t ∧ Trimmed s t ∧ m.length = mem.length ∧
      m.take (j + 1) = mem.take (j + 1) ∧ m.drop (off + s.length) = mem.drop (off + s.length) ∧
      off ≤ o ∧ o + t.length ≤ off + s.length ∧ (∀ i : Nat, mem[i]? ≠ some ' ' → m[i]? = mem[i]?) := by
  have hle := h.le
  obtain ⟨post, hm, hl⟩ := h.split
  set pre := mem.take off with hpre
  obtain ⟨n, h1, h2, h3, h4, h5⟩ := stripEnd_spec mem (off + s.length) j hjo hj (by omega)
  have hlen0 : ¬ s.length = 0 := by simpa using hs
  set m := mem.take n ++ List.replicate (off + s.length - n) nul ++ mem.drop (off + s.length) with hmdef
  have hst : strip mem off = .ok (m, off + (s.takeWhile (· == ' ')).length) := by
    simp only [strip, h.cstr, if_neg hlen0, h5, Res.bind_ok, Res.pure_eq]
  have hmlen : m.length = mem.length := by
    simp only [hmdef, List.length_append, List.length_take, List.length_replicate, List.length_drop]; omega
  have hmtake : m.take n = mem.take n := by
    rw [hmdef, List.append_assoc]
    exact List.take_left' (by simp; omega)
  have hmdrop : m.drop (off + s.length) = mem.drop (off + s.length) := by
    rw [hmdef]
    exact List.drop_left' (by simp; omega)
  have hpost : mem.drop (off + s.length) = nul :: post := by
    rw [hm]; exact List.drop_left' (by simp [hl])
  have hget : ∀ i : Nat, mem[i]? ≠ some ' ' → m[i]? = mem[i]? := by
    intro i hi
    rcases Nat.lt_or_ge i n with hin | hin
    · rw [← List.getElem?_take_of_lt (l := m) hin, hmtake, List.getElem?_take_of_lt hin]
    · rcases Nat.lt_or_ge i (off + s.length) with hio | hio
      · exact (hi (h4 i hin hio)).elim
      · have e : i = off + s.length + (i - (off + s.length)) := by omega
        rw [e, ← List.getElem?_drop, ← List.getElem?_drop, hmdrop]
  obtain ⟨r, hr1, hr2, hr3⟩ := takeWhile_split s
  set lead := s.takeWhile (· == ' ') with hlead
  have htakej : m.take (j + 1) = mem.take (j + 1) := by
    have := congrArg (List.take (j + 1)) hmtake
    rwa [List.take_take, List.take_take, Nat.min_eq_left (by omega)] at this
  have hsi : ∀ i : Nat, i < s.length → mem[off + i]? = s[i]? := by
    intro i hi
    rw [hm, List.getElem?_append_left (by simp [hl]; omega), List.getElem?_append_right (by omega), hl]
    congr 1
    omega
  rcases Nat.lt_or_ge off n with hn | hn
  · -- a character of the string remains
    have hlast : s[n - off - 1]? ≠ some ' ' := by
      rw [← hsi _ (by omega)]
      have e : off + (n - off - 1) = n - 1 := by omega
      rwa [e]
    have hleadn : lead.length ≤ n - off - 1 := by
      by_contra hc
      have hmem : s[n - off - 1]? = some ' ' := by
        rw [hr1, List.getElem?_append_left (by omega)]
        have hx := List.getElem?_eq_getElem (l := lead) (i := n - off - 1) (by omega)
        rw [hx, hr3 _ (List.getElem_mem _)]
      exact hlast hmem
    set t := r.take (n - off - lead.length) with ht
    have hsl : s.length = lead.length + r.length := by
      have := congrArg List.length hr1; simpa using this
    have htl : t.length = n - off - lead.length := by simp [ht]; omega
    have hstake : s.take (n - off) = lead ++ t := by
      rw [hr1, List.take_append, List.take_of_length_le (by omega), ht]
    have hmem_take : mem.take n = pre ++ lead ++ t := by
      have e : mem.take n = pre ++ s.take (n - off) := by
        conv_lhs => rw [hm]
        rw [List.append_assoc, List.take_append, hl, List.take_of_length_le (by omega),
          List.take_append_of_le_length (by omega)]
      rw [e, hstake, List.append_assoc]
    have hdrop : m.drop (off + lead.length) = t ++ (List.replicate (off + s.length - n) nul ++ nul :: post) := by
      rw [hmdef, hmem_take, hpost, List.append_assoc, List.append_assoc]
      exact List.drop_left' (by simp [hl])
    have hnt : nul ∉ t := fun hc => h.real (by rw [hr1]; exact List.mem_append_right _ (List.mem_of_mem_take hc))
    refine ⟨m, _, t, hst, ⟨hnt, ?_⟩, ⟨lead, r.drop (n - off - lead.length), ?_, hr3, ?_, ?_, ?_⟩, hmlen, htakej, hmdrop,
      by omega, by omega, hget⟩
    · rcases Nat.eq_zero_or_pos (off + s.length - n) with h0 | h0
      · exact ⟨post, by rw [hdrop, h0]; rfl⟩
      · obtain ⟨q, hq⟩ := Nat.exists_eq_succ_of_ne_zero (Nat.ne_of_gt h0)
        exact ⟨List.replicate q nul ++ nul :: post, by rw [hdrop, hq]; rfl⟩
    · rw [List.append_assoc, ht, List.take_append_drop]; exact hr1
    · intro c hc
      obtain ⟨i, hi⟩ := List.mem_iff_getElem?.1 hc
      rw [List.getElem?_drop] at hi
      have hil : n - off - lead.length + i < r.length := by
        by_contra hge
        rw [List.getElem?_eq_none (by omega)] at hi
        cases hi
      have h7 := h4 (n + i) (by omega) (by omega)
      have e1 : n + i = off + (n - off + i) := by omega
      rw [e1, hsi _ (by omega), hr1, List.getElem?_append_right (by omega)] at h7
      have e2 : n - off + i - lead.length = n - off - lead.length + i := by omega
      rw [e2, hi] at h7
      exact Option.some.inj h7
    · intro hc
      apply hr2
      cases r with
      | nil => simp [ht] at hc
      | cons c r =>
        have : n - off - lead.length = (n - off - lead.length - 1) + 1 := by omega
        rw [ht, this] at hc
        simpa using hc
    · intro hc
      apply hlast
      rw [List.getLast?_eq_getElem?, htl] at hc
      have e : s[n - off - 1]? = (s.take (n - off))[n - off - 1]? := by
        rw [List.getElem?_take_of_lt (by omega)]
      rw [e, hstake, List.getElem?_append_right (by omega)]
      have e2 : n - off - 1 - lead.length = n - off - lead.length - 1 := by omega
      rw [e2]; exact hc
  · -- nothing but blanks
    have hall : ∀ c ∈ s, c = ' ' := by
      intro c hc
      obtain ⟨i, hi⟩ := List.mem_iff_getElem?.1 hc
      have hil : i < s.length := by
        by_contra hge
        rw [List.getElem?_eq_none (by omega)] at hi
        cases hi
      have h7 := h4 (off + i) (by omega) (by omega)
      rw [hsi i hil, hi] at h7
      exact Option.some.inj h7
    have hls : lead = s := by
      rw [hlead]
      have := List.takeWhile_append_of_pos (p := (· == ' ')) (l₁ := s) (l₂ := []) fun c hc => by simp [hall c hc]
      simpa using this
    refine ⟨m, _, [], hst, ⟨by simp, ?_⟩, ⟨s, [], by simp, hall, by simp, by simp, by simp⟩, hmlen, htakej, hmdrop,
      by omega, by simp [hls], hget⟩
    exact ⟨post, by rw [hls, hmdrop, hpost]; rfl⟩

/-- A string survives changes elsewhere. -/
theorem StrAt.keep {mem m : Str} {o : Nat} {p : Str} (h : StrAt mem o p) (hm : ∀ i : Nat, o ≤ i → i ≤ o + p.length → m[i]? = mem[i]?) :
    StrAt m o p := by
  obtain ⟨hn, post, hp⟩ := h
  refine ⟨hn, m.drop (o + p.length + 1), ?_⟩
  apply List.ext_getElem?
  intro i
  have hi : ∀ i : Nat, i ≤ p.length → (m.drop o)[i]? = (p ++ [nul])[i]? := by
    intro i hi
    rw [List.getElem?_drop, hm _ (by omega) (by omega), ← List.getElem?_drop, hp]
    have e : p ++ nul :: post = (p ++ [nul]) ++ post := by simp
    rw [e, List.getElem?_append_left (by simp; omega)]
  have e : p ++ nul :: m.drop (o + p.length + 1) = (p ++ [nul]) ++ m.drop (o + p.length + 1) := by
    rw [List.append_assoc]; rfl
  rcases Nat.lt_or_ge i (p.length + 1) with h | h
  · rw [e, List.getElem?_append_left (by simp; omega), hi i (by omega)]
  · rw [e, List.getElem?_append_right (by simp; omega), List.getElem?_drop, List.getElem?_drop]
    congr 1
    simp
    omega

theorem Layout.keep {mem m : Str} : ∀ {os : List Nat} {ps : List Str}, Layout mem os ps →
    (∀ o ∈ os, ∀ i : Nat, o ≤ i → m[i]? = mem[i]?) → Layout m os ps
  | [], [], _, _ => trivial
  | o :: os, p :: ps, h, hk =>
    ⟨h.1.keep fun i hi _ => hk o (by simp) i hi, h.2.1, h.2.2.keep fun o' ho' => hk o' (by simp [ho'])⟩
  | [], _ :: _, h, _ => h.elim
  | _ :: _, [], h, _ => h.elim

theorem trimmed_nil : Trimmed [] [] := ⟨[], [], rfl, by simp, by simp, by simp, by simp⟩

theorem StrAt.nulAt {mem : Str} {o : Nat} {p : Str} (h : StrAt mem o p) : mem[o + p.length]? = some nul := by
  obtain ⟨_, post, hp⟩ := h
  rw [← List.getElem?_drop, hp, List.getElem?_append_right (by omega)]
  simp

/-- Stripping all pieces, when something other than a blank precedes the first one. -/
theorem stripAll_spec : ∀ {os : List Nat} {ps : List Str} {mem : Str}, Layout mem os ps → ∀ (j : Nat),
    mem[j]? ≠ some ' ' → (∀ o ∈ os, j < o) →
    ∃ m os' ts, stripAll mem os = .ok (m, os') ∧ Layout m os' ts ∧ List.Forall₂ Trimmed ps ts ∧
      m.length = mem.length ∧ m.take (j + 1) = mem.take (j + 1) ∧ (∀ o' ∈ os', ∃ o ∈ os, o ≤ o') := by
  intro os
  induction os with
  | nil =>
    intro ps mem h j hj _
    cases ps with
    | nil => exact ⟨mem, [], [], rfl, trivial, .nil, rfl, rfl, by simp⟩
    | cons => exact h.elim
  | cons o os ih =>
    intro ps mem h j hj hjo
    cases ps with
    | nil => exact h.elim
    | cons p ps =>
      obtain ⟨h1, h2, h3⟩ := h
      have hjo' := hjo o (by simp)
      -- the first piece
      obtain ⟨m1, o1, t, e1, s1, tr, l1, tk1, dr1, b1, b2⟩ : ∃ m1 o1 t, strip mem o = .ok (m1, o1) ∧ StrAt m1 o1 t ∧
          Trimmed p t ∧ m1.length = mem.length ∧ m1.take (j + 1) = mem.take (j + 1) ∧
          m1.drop (o + p.length) = mem.drop (o + p.length) ∧ o ≤ o1 ∧ o1 + t.length ≤ o + p.length := by
        by_cases hp : p = []
        · subst hp
          exact ⟨mem, o, [], by simp [strip, h1.cstr], h1, trimmed_nil, rfl, rfl, rfl, Nat.le_refl _, by simp⟩
        · have : 0 < p.length := List.length_pos_iff.2 hp
          obtain ⟨m1, o1, t, e1, s1, tr, l1, tk1, dr1, b1, b2, _⟩ := strip_spec h1 hp j hj (by omega)
          exact ⟨m1, o1, t, e1, s1, tr, l1, tk1, dr1, b1, b2⟩
      have hget1 : ∀ i : Nat, o + p.length ≤ i → m1[i]? = mem[i]? := by
        intro i hi
        have e : i = o + p.length + (i - (o + p.length)) := by omega
        rw [e, ← List.getElem?_drop, ← List.getElem?_drop, dr1]
      have hnul : m1[o + p.length]? = some nul := by rw [hget1 _ (Nat.le_refl _), h1.nulAt]
      have hl3 : Layout m1 os ps := h3.keep fun o' ho' i hi => hget1 i (by have := h2 o' ho'; omega)
      obtain ⟨m2, os', ts, e2, l2, f2, ln2, tk2, b3⟩ := ih hl3 (o + p.length) (by rw [hnul]; decide) h2
      refine ⟨m2, o1 :: os', t :: ts, ?_, ⟨?_, ?_, l2⟩, .cons tr f2, ln2.trans l1, ?_, ?_⟩
      · simp only [stripAll, e1, Res.bind_ok, e2, Res.pure_eq]
      · refine s1.keep fun i hi hi2 => ?_
        rw [← List.getElem?_take_of_lt (l := m2) (j := o + p.length + 1) (by omega), tk2,
          List.getElem?_take_of_lt (by omega)]
      · intro o' ho'
        obtain ⟨o'', ho'', hle⟩ := b3 o' ho'
        have := h2 o'' ho''
        omega
      · have := congrArg (List.take (j + 1)) tk2
        rw [List.take_take, List.take_take, Nat.min_eq_left (by omega)] at this
        rw [this, tk1]
      · intro o' ho'
        simp only [List.mem_cons] at ho'
        rcases ho' with rfl | ho'
        · exact ⟨o, by simp, b1⟩
        · obtain ⟨o'', ho'', hle⟩ := b3 o' ho'
          exact ⟨o'', by simp [ho''], hle⟩

end Verif
