import Verif.Model.RuleParsing
import Verif.Spec.RuleText
import Verif.Props.Rewrite
import Mathlib.Tactic.Tauto

/-!
# Lemmas on the text of rules
-/

namespace Verif
variable {V : Type}

theorem isPrefixOf_iff' {a b : Str} : a.isPrefixOf b = true ↔ a <+: b := List.isPrefixOf_iff_prefix

theorem strstrFrom_some {needle : Str} (s : Str) (k j : Nat) (h : strstrFrom needle s k = some j) :
    ∃ i, j = k + i ∧ needle <+: s.drop i ∧ i + needle.length ≤ s.length ∧ ∀ i' < i, ¬ needle <+: s.drop i' := by
  induction s generalizing k with
  | nil =>
    unfold strstrFrom at h
    split at h
    · rename_i hn
      cases needle with
      | cons => cases hn
      | nil =>
        cases h
        exact ⟨0, rfl, by simp, by simp, by simp⟩
    · cases h
  | cons c s ih =>
    unfold strstrFrom at h
    split at h
    · rename_i hp
      cases h
      have := isPrefixOf_iff'.1 hp
      exact ⟨0, rfl, by simpa using this, by simpa using this.length_le, by simp⟩
    · rename_i hp
      obtain ⟨i, h1, h2, h3, h4⟩ := ih _ h
      refine ⟨i + 1, by omega, by simpa using h2, by simp; omega, ?_⟩
      intro i' hi'
      cases i' with
      | zero => simpa using fun hc => hp (isPrefixOf_iff'.2 hc)
      | succ i' => simpa using h4 i' (by omega)

theorem strstrFrom_none {needle : Str} (s : Str) (k : Nat) (h : strstrFrom needle s k = none) (i : Nat) :
    ¬ needle <+: s.drop i := by
  induction s generalizing k i with
  | nil =>
    unfold strstrFrom at h
    split at h
    · cases h
    · rename_i hn
      intro hp
      cases needle with
      | nil => exact hn rfl
      | cons => simp at hp
  | cons c s ih =>
    unfold strstrFrom at h
    split at h
    · cases h
    · rename_i hp
      cases i with
      | zero => simpa using fun hc => hp (isPrefixOf_iff'.2 hc)
      | succ i => simpa using ih _ h i

theorem drop_append_of {a sep b : Str} : (a ++ sep ++ b).drop a.length = sep ++ b := by
  rw [List.append_assoc, List.drop_left]

theorem strstr_some {s sep : Str} {k : Nat} (h : strstr s sep = some k) :
    FirstCut sep s (s.take k) (s.drop (k + sep.length)) ∧ k ≤ s.length := by
  obtain ⟨i, h1, h2, h3, h4⟩ := strstrFrom_some s 0 k h
  simp only [Nat.zero_add] at h1
  subst h1
  refine ⟨⟨?_, ?_⟩, by omega⟩
  · obtain ⟨t, ht⟩ := h2
    have : s.drop (k + sep.length) = t := by
      rw [← List.drop_drop, ← ht, List.drop_left]
    rw [this, List.append_assoc, ht, List.take_append_drop]
  · intro a' b' hs
    rw [List.length_take, Nat.min_eq_left (by omega)]
    by_contra hlt
    refine h4 a'.length (by omega) ?_
    rw [hs, drop_append_of]
    exact List.prefix_append _ _

theorem strstr_none {s sep : Str} (h : strstr s sep = none) : Absent sep s := by
  intro a b hs
  refine strstrFrom_none s 0 h a.length ?_
  rw [hs, drop_append_of]
  exact List.prefix_append _ _

theorem FirstCut.unique {sep s a b a' b' : Str} (h : FirstCut sep s a b) (h' : FirstCut sep s a' b') :
    a = a' ∧ b = b' := by
  have h1 := h.2 a' b' h'.1
  have h2 := h'.2 a b h.1
  have h3 : a.length = a'.length := by omega
  have h4 := h.1.symm.trans h'.1
  rw [List.append_assoc, List.append_assoc] at h4
  obtain ⟨h5, h6⟩ := List.append_inj h4 h3
  exact ⟨h5, List.append_cancel_left h6⟩

theorem FirstCut.strstr {sep s a b : Str} (h : FirstCut sep s a b) : strstr s sep = some a.length := by
  cases hs : Verif.strstr s sep with
  | none => exact (strstr_none hs a b h.1).elim
  | some k =>
    obtain ⟨h1, h2⟩ := strstr_some hs
    have := (h.unique h1).1
    rw [this, List.length_take, Nat.min_eq_left h2]

theorem Absent.strstr {sep s : Str} (h : Absent sep s) : strstr s sep = none := by
  cases hs : Verif.strstr s sep with
  | none => rfl
  | some k => exact (h _ _ (strstr_some hs).1.1).elim

theorem cstr_of {s : Str} (h : '\x00' ∉ s) (t : Str) : cstr (s ++ '\x00' :: t) = s := by
  unfold cstr
  rw [List.takeWhile_append_of_pos (fun c hc => by simpa using fun (e : c = '\x00') => h (e ▸ hc))]
  simp

theorem cstr_id {s : Str} (h : '\x00' ∉ s) : cstr s = s := by
  have := List.takeWhile_append_of_pos (p := (· != '\x00')) (l₁ := s) (l₂ := [])
    (fun c hc => by simpa using fun (e : c = '\x00') => h (e ▸ hc))
  simpa [cstr] using this

/-- A text that parses. -/
def Reads (parse : Str → Res (Option (Tree V))) (s : Str) (t : Tree V) : Prop := parse s = .ok (some t)

theorem parseConstraintsLoop_spec (parse : Str → Res (Option (Tree V))) {s : Str} {cs : List Str}
    (h : Parts " ; ".toList s cs) : ∀ left, cs.length ≤ left → ∀ r,
    parseConstraintsLoop parse left s = .ok r →
      (∀ ts, r = some ts → List.Forall₂ (Reads parse) cs ts) ∧
      (r = none → ∃ c ∈ cs, parse c = .ok none) := by
  induction h with
  | one h =>
    intro left hl r hr
    cases left with
    | zero => simp at hl
    | succ left =>
      simp only [parseConstraintsLoop, h.strstr] at hr
      obtain ⟨t, ht, hr⟩ := Res.bind_eq_ok.1 hr
      cases t with
      | none => cases hr; exact ⟨by simp, fun _ => ⟨_, by simp, ht⟩⟩
      | some t =>
        have : r = some [t] := by
          simp only [ite_self, Res.pure_eq, Res.ok.injEq] at hr
          exact hr.symm
        subst this
        refine ⟨fun ts hts => ?_, by simp⟩
        cases hts
        exact .cons ht .nil
  | @more s a b l hc hp ih =>
    intro left hl r hr
    cases left with
    | zero => simp at hl
    | succ left =>
      have hl' : l.length ≤ left := by simpa using hl
      have hne : left ≠ 0 := by
        rintro rfl
        cases l with
        | nil => cases hp
        | cons => simp at hl'
      have e1 : s.take a.length = a := by
        conv_lhs => rw [hc.1, List.append_assoc, List.take_left]
      have e2 : s.drop (a.length + 3) = b := by
        conv_lhs => rw [hc.1, show a.length + 3 = (a ++ " ; ".toList).length by simp, List.drop_left]
      simp only [parseConstraintsLoop, hc.strstr, e1, e2, hne, if_false] at hr
      obtain ⟨t, ht, hr⟩ := Res.bind_eq_ok.1 hr
      cases t with
      | none => cases hr; exact ⟨by simp, fun _ => ⟨_, by simp, ht⟩⟩
      | some t =>
        simp only at hr
        obtain ⟨ts, hts, hr⟩ := Res.bind_eq_ok.1 hr
        obtain ⟨h1, h2⟩ := ih left hl' ts hts
        cases ts with
        | none =>
          cases hr
          obtain ⟨c, hc, hcc⟩ := h2 rfl
          exact ⟨by simp, fun _ => ⟨c, by simp [hc], hcc⟩⟩
        | some ts =>
          cases hr
          refine ⟨fun us hus => ?_, by simp⟩
          cases hus
          exact .cons ht (h1 ts rfl)

theorem parseConstraintsLoop_ok (parse : Str → Res (Option (Tree V))) {s : Str} {cs : List Str}
    (h : Parts " ; ".toList s cs) (hp : ∀ c ∈ cs, ∃ r, parse c = .ok r) : ∀ left, cs.length ≤ left →
    ∃ r, parseConstraintsLoop parse left s = .ok r := by
  induction h with
  | @one s h =>
    intro left hl
    cases left with
    | zero => simp at hl
    | succ left =>
      obtain ⟨r, hr⟩ := hp s (by simp)
      simp only [parseConstraintsLoop, h.strstr, hr, Res.bind_ok, ite_self]
      cases r <;> exact ⟨_, rfl⟩
  | @more s a b l hc hq ih =>
    intro left hl
    cases left with
    | zero => simp at hl
    | succ left =>
      have hl' : l.length ≤ left := by simpa using hl
      obtain ⟨r, hr⟩ := hp a (by simp)
      obtain ⟨q, hq'⟩ := ih (fun c hc => hp c (by simp [hc])) left hl'
      have e1 : s.take a.length = a := by
        conv_lhs => rw [hc.1, List.append_assoc, List.take_left]
      have e2 : s.drop (a.length + 3) = b := by
        conv_lhs => rw [hc.1, show a.length + 3 = (a ++ " ; ".toList).length by simp, List.drop_left]
      simp only [parseConstraintsLoop, hc.strstr, e1, e2, hr, Res.bind_ok]
      cases r with
      | none => exact ⟨_, rfl⟩
      | some t =>
        simp only
        split
        · exact ⟨_, rfl⟩
        · rw [hq', Res.bind_ok]
          cases q <;> exact ⟨_, rfl⟩

/-! ## parse_rule -/

theorem set_mid (a : Str) (c : Char) (b : Str) (d : Char) : (a ++ c :: b).set a.length d = a ++ d :: b := by
  rw [List.set_append_right _ _ (Nat.le_refl _)]
  simp

/-- What `parse_rule` does with a rule, once it is cut. -/
def ruleOf (parse : Str → Res (Option (Tree V))) (left right : Str) (conds : Option Str) :
    Res (Option (RewriteRule V)) := do
  match ← parseConstraints parse maxConstraints conds with
  | none => pure none
  | some cs =>
    match ← parse left with
    | none => pure none
    | some l =>
      match ← parse right with
      | none => pure none
      | some r =>
        match getPattern l cs with
        | .error _ => pure none
        | .ok pat => pure (getRule pat r)

theorem arrow_cut {left right : Str} {c : Char} {rest s : Str} (h0 : '\x00' ∉ s)
    (h : s = left ++ '-' :: c :: (right ++ rest)) :
    '\x00' ∉ left ∧ '\x00' ∉ right ∧ '\x00' ∉ rest := by
  subst h
  simp only [List.mem_append, List.mem_cons, not_or] at h0
  tauto

theorem parseRule_plain (parse : Str → Res (Option (Tree V))) {s left right : Str} (h0 : '\x00' ∉ s)
    (h : FirstCut "->".toList s left right) (hw : Absent " WHERE ".toList s) :
    parseRule parse s = ruleOf parse left right none := by
  have hs : s = left ++ '-' :: '>' :: (right ++ []) := by rw [h.1]; simp
  obtain ⟨h1, h2, -⟩ := arrow_cut h0 hs
  have e1 : cstr (s.set left.length '\x00') = left := by
    conv_lhs => rw [hs, set_mid]
    exact cstr_of h1 _
  have e2 : cstr ((s.set left.length '\x00').drop (left.length + 2)) = right := by
    conv_lhs => rw [hs, set_mid, ← List.drop_drop, List.drop_left]
    simpa using cstr_id h2
  simp only [parseRule, h.strstr, hw.strstr, Option.map_none, e1, e2]
  rfl

theorem cut_body {s body conds left right : Str} (hc : FirstCut " WHERE ".toList s body conds)
    (h : FirstCut "->".toList body left right) :
    FirstCut "->".toList s left (right ++ " WHERE ".toList ++ conds) := by
  refine ⟨by rw [hc.1, h.1]; simp, ?_⟩
  intro a' b' hs
  by_contra hlt
  have hl : a'.length + 2 ≤ body.length := by
    have := congrArg List.length h.1
    simp only [List.length_append] at this
    have e : "->".toList.length = 2 := rfl
    omega
  have : body = a' ++ "->".toList ++ body.drop (a'.length + 2) := by
    have e : body.take (a'.length + 2) = a' ++ "->".toList := by
      have := congrArg (List.take (a'.length + 2)) (hc.1.symm.trans hs)
      rw [List.append_assoc, List.take_append_of_le_length hl] at this
      rw [this, List.take_append_of_le_length (by simp)]
      rw [List.take_of_length_le (by simp)]
    rw [← e, List.take_append_drop]
  have := h.2 _ _ this
  omega

theorem parseRule_where (parse : Str → Res (Option (Tree V))) {s body conds left right : Str} (h0 : '\x00' ∉ s)
    (hc : FirstCut " WHERE ".toList s body conds) (h : FirstCut "->".toList body left right) :
    parseRule parse s = ruleOf parse left right (some conds) := by
  have ha := cut_body hc h
  have hb : body = left ++ '-' :: '>' :: right := by rw [h.1]; simp
  have hs : s = left ++ '-' :: '>' :: (right ++ (' ' :: "WHERE ".toList ++ conds)) := by
    rw [hc.1, hb]; simp
  obtain ⟨h1, h2, h3⟩ := arrow_cut h0 hs
  have e0 : (s.set left.length '\x00').set body.length '\x00'
      = left ++ '\x00' :: '>' :: (right ++ '\x00' :: ("WHERE ".toList ++ conds)) := by
    conv_lhs => rw [hs, set_mid]
    have : left ++ '\x00' :: '>' :: (right ++ (' ' :: "WHERE ".toList ++ conds))
        = (left ++ '\x00' :: '>' :: right) ++ ' ' :: ("WHERE ".toList ++ conds) := by simp
    rw [this, show body.length = (left ++ '\x00' :: '>' :: right).length by rw [hb]; simp, set_mid]
    simp
  have e1 : cstr (left ++ '\x00' :: '>' :: (right ++ '\x00' :: ("WHERE ".toList ++ conds))) = left := cstr_of h1 _
  have e2 : cstr ((left ++ '\x00' :: '>' :: (right ++ '\x00' :: ("WHERE ".toList ++ conds))).drop
      (left.length + 2)) = right := by
    rw [← List.drop_drop, List.drop_left]
    exact cstr_of h2 _
  have e3 : cstr ((left ++ '\x00' :: '>' :: (right ++ '\x00' :: ("WHERE ".toList ++ conds))).drop
      (body.length + 7)) = conds := by
    have : left ++ '\x00' :: '>' :: (right ++ '\x00' :: ("WHERE ".toList ++ conds))
        = (left ++ '\x00' :: '>' :: right ++ '\x00' :: "WHERE ".toList) ++ conds := by simp
    rw [this, show body.length + 7 = (left ++ '\x00' :: '>' :: right ++ '\x00' :: "WHERE ".toList).length by
      rw [hb]; simp; omega, List.drop_left]
    refine cstr_id fun hm => h3 ?_
    simp [hm]
  simp only [parseRule, ha.strstr, hc.strstr, Option.map_some, e0, e1, e2, e3]
  rfl

end Verif
