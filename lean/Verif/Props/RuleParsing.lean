import Verif.Lemmas.RuleParsing
import Verif.Props.Simplification

/-!
# C52, C53: rule files
-/

namespace Verif.RuleFileProps
open Verif RewriteProps
variable {V : Type}

/-- Every word and number is a variable, for examples. -/
def toy (s : Str) : Res (Option (Tree Nat)) :=
  if s.all isSpace then .ok none else .ok (some (.var (s.filter fun c => !isSpace c) 0 0))

/-! ## C52, one rule -/

theorem parseRule_cut (parse : Str → Res (Option (Tree V))) {s left right : Str} {cs : List Str}
    (h0 : '\x00' ∉ s) (h : RuleText s left right cs) (hn : cs.length ≤ 3) :
    ∃ conds, parseRule parse s = ruleOf parse left right conds ∧
      (∀ r, parseConstraints parse maxConstraints conds = .ok r →
        (∀ ts, r = some ts → List.Forall₂ (Reads parse) cs ts) ∧
        (r = none → ∃ c ∈ cs, parse c = .ok none)) ∧
      ((∀ c ∈ cs, ∃ r, parse c = .ok r) → ∃ r, parseConstraints parse maxConstraints conds = .ok r) := by
  cases h with
  | plain h hw =>
    refine ⟨none, parseRule_plain parse h0 h hw, fun r hr => ?_, fun _ => ⟨_, rfl⟩⟩
    cases hr
    refine ⟨fun ts hts => ?_, fun h => nomatch h⟩
    cases hts
    exact .nil
  | «where» hc h hp =>
    exact ⟨some _, parseRule_where parse h0 hc h,
      fun r hr => parseConstraintsLoop_spec parse hp 3 hn r hr,
      fun hp' => parseConstraintsLoop_ok parse hp hp' 3 hn⟩

/-- **C52**, one rule (partial: at most three constraints, the text in the order
left side, arrow, right side, WHERE, constraints): the rule that is read is made of
the left side, the right side and all constraints of the text. -/
theorem C52_rule_partial (parse : Str → Res (Option (Tree V))) {s left right : Str} {cs : List Str}
    (h0 : '\x00' ∉ s) (h : RuleText s left right cs) (hn : cs.length ≤ 3) {rule : RewriteRule V}
    (hr : parseRule parse s = .ok (some rule)) :
    ∃ l r ts, parse left = .ok (some l) ∧ parse right = .ok (some r) ∧
      List.Forall₂ (fun c t => parse c = .ok (some t)) cs ts ∧ Accepted l ts r rule := by
  obtain ⟨conds, he, h1, -⟩ := parseRule_cut parse h0 h hn
  rw [he] at hr
  unfold ruleOf at hr
  obtain ⟨ts, hts, hr⟩ := Res.bind_eq_ok.1 hr
  obtain ⟨h1, -⟩ := h1 ts hts
  cases ts with
  | none => cases hr
  | some ts =>
    simp only at hr
    obtain ⟨l, hl, hr⟩ := Res.bind_eq_ok.1 hr
    cases l with
    | none => cases hr
    | some l =>
      simp only at hr
      obtain ⟨r, hr', hr⟩ := Res.bind_eq_ok.1 hr
      cases r with
      | none => cases hr
      | some r =>
        simp only at hr
        cases hp : getPattern l ts with
        | error e => rw [hp] at hr; cases hr
        | ok pat =>
          rw [hp] at hr
          simp only [Res.pure_eq, Res.ok.injEq] at hr
          exact ⟨l, r, ts, hl, hr', h1 ts rfl, ⟨pat, hp, hr⟩⟩

/-- **C52**, one rule: the text is rejected only for a reason: one of its parts can not
be parsed, or the parts do not make a rule (see `C30`). -/
theorem C52_rejected_partial (parse : Str → Res (Option (Tree V))) {s left right : Str} {cs : List Str}
    (h0 : '\x00' ∉ s) (h : RuleText s left right cs) (hn : cs.length ≤ 3)
    (hp : ∀ p ∈ left :: right :: cs, ∃ r, parse p = .ok r) :
    (∃ rule, parseRule parse s = .ok (some rule)) ∨ parseRule parse s = .ok none ∧
      ((∃ p ∈ left :: right :: cs, parse p = .ok none) ∨
        ∃ l r ts, parse left = .ok (some l) ∧ parse right = .ok (some r) ∧
          List.Forall₂ (fun c t => parse c = .ok (some t)) cs ts ∧ ∀ rule, ¬ Accepted l ts r rule) := by
  obtain ⟨conds, he, h1, h2⟩ := parseRule_cut parse h0 h hn
  obtain ⟨q, hq⟩ := h2 fun c hc => hp c (by simp [hc])
  obtain ⟨h3, h4⟩ := h1 q hq
  obtain ⟨x, hx⟩ := hp left (by simp)
  obtain ⟨y, hy⟩ := hp right (by simp)
  rw [he]
  simp only [ruleOf, hq, hx, hy, Res.bind_ok]
  cases q with
  | none =>
    obtain ⟨c, hc, hcc⟩ := h4 rfl
    exact .inr ⟨rfl, .inl ⟨c, by simp [hc], hcc⟩⟩
  | some ts =>
    cases x with
    | none => exact .inr ⟨rfl, .inl ⟨left, by simp, hx⟩⟩
    | some l =>
      cases y with
      | none => exact .inr ⟨rfl, .inl ⟨right, by simp, hy⟩⟩
      | some r =>
        simp only
        cases hg : getPattern l ts with
        | error e =>
          refine .inr ⟨rfl, .inr ⟨l, r, ts, rfl, rfl, h3 ts rfl, fun rule hr => ?_⟩⟩
          obtain ⟨pat, h5, -⟩ := hr.ok
          rw [hg] at h5
          cases h5
        | ok pat =>
          cases hr : getRule pat r with
          | some rule => exact .inl ⟨rule, by simp only [hr]; rfl⟩
          | none =>
            refine .inr ⟨by simp only [hr]; rfl, .inr ⟨l, r, ts, rfl, rfl, h3 ts rfl, fun rule hr' => ?_⟩⟩
            obtain ⟨pat', h5, h6⟩ := hr'.ok
            rw [hg] at h5
            cases h5
            rw [hr] at h6
            cases h6

/-- A line without an arrow is rejected. -/
theorem C52_no_arrow (parse : Str → Res (Option (Tree V))) {s : Str} (h : Absent "->".toList s) :
    parseRule parse s = .ok none := by
  simp only [parseRule, h.strstr]
  rfl

theorem strstr_cut {s sep : Str} {k : Nat} (h : strstr s sep = some k) :
    FirstCut sep s (s.take k) (s.drop (k + sep.length)) := (strstr_some h).1

/-- The hypothesis is met by a rule of the shipped file. -/
example : RuleText "deriv(cx * z^cy, z) -> cx*cy*z^(cy-1)  WHERE type(cx) == CONST ; type(cy) == CONST".toList
    "deriv(cx * z^cy, z) ".toList " cx*cy*z^(cy-1) ".toList
    ["type(cx) == CONST".toList, "type(cy) == CONST".toList] :=
  .where (strstr_cut (s := "deriv(cx * z^cy, z) -> cx*cy*z^(cy-1)  WHERE type(cx) == CONST ; type(cy) == CONST".toList)
      (k := 38) (by decide +kernel))
    (strstr_cut (s := "deriv(cx * z^cy, z) -> cx*cy*z^(cy-1) ".toList) (sep := "->".toList) (k := 20) (by decide +kernel))
    (.more (strstr_cut (s := "type(cx) == CONST ; type(cy) == CONST".toList) (sep := " ; ".toList) (k := 17)
      (by decide +kernel)) (.one (strstr_none (by decide +kernel))))

/-- **C52**, negation of the full statement: a fourth constraint is ignored, whatever it
says. -/
theorem C52_constraints_witness (parse : Str → Res (Option (Tree V))) :
    parseRule parse "x -> 1 WHERE a ; b ; c ; d".toList = parseRule parse "x -> 1 WHERE a ; b ; c".toList := by
  rfl

/-! ## C52, the file -/

theorem getlines_unlines (lines : List Str) (h : ∀ l ∈ lines, '\n' ∉ l) :
    getlines ((lines.map fun l => l ++ ['\n']).flatten) = lines.map fun l => l ++ ['\n'] := by
  induction lines with
  | nil => rfl
  | cons l ls ih =>
    have ih := ih fun l hl => h l (by simp [hl])
    have hl := h l (by simp)
    simp only [List.map_cons, List.flatten_cons]
    rw [List.append_assoc, List.singleton_append]
    clear h
    induction l with
    | nil => simp [getlines, ih]
    | cons c l ihl =>
      have hc : c ≠ '\n' := fun e => hl (by simp [e])
      have := ihl fun hm => hl (by simp [hm])
      simp only [List.cons_append, getlines, hc, if_false, this]

theorem dropWhile_spaces (k : Nat) {body : Str} (h : body.head? ≠ some ' ') :
    (List.replicate k ' ' ++ body).dropWhile (· == ' ') = body := by
  induction k with
  | zero =>
    cases body with
    | nil => rfl
    | cons c b =>
      have : c ≠ ' ' := fun e => h (by rw [e]; rfl)
      simp [List.dropWhile_cons, this]
  | succ k ih => simpa [List.replicate_succ, List.dropWhile_cons] using ih

theorem prepareLine_content {line body : Str} (h0 : '\x00' ∉ line) (h : Content line body) :
    prepareLine (line ++ ['\n']) = .ok body := by
  obtain ⟨k, comment, rfl, h1, h2, h3⟩ := h
  have hs : cstr (List.replicate k ' ' ++ body ++ comment ++ ['\n'])
      = List.replicate k ' ' ++ body ++ comment ++ ['\n'] := by
    refine cstr_id fun hm => ?_
    rw [List.mem_append] at hm
    rcases hm with hm | hm
    · exact h0 hm
    · simp at hm
  have hne : (List.replicate k ' ' ++ body ++ comment ++ ['\n']).isEmpty = false := by simp
  simp only [prepareLine, hs, hne, List.dropLast_concat]
  have hb : ∀ c ∈ List.replicate k ' ' ++ body, c ≠ '#' := by
    intro c hc e
    subst e
    rw [List.mem_append] at hc
    rcases hc with hc | hc
    · simp [List.mem_replicate] at hc
    · exact h2 hc
  rcases h1 with rfl | h1
  · have : Absent "#".toList (List.replicate k ' ' ++ body ++ []) := by
      intro a b hab
      exact hb '#' (by rw [List.append_nil] at hab; rw [hab]; simp) rfl
    simp only [this.strstr, Bool.false_eq_true, if_false]
    rw [List.append_nil, dropWhile_spaces k h3]
  · cases comment with
    | nil => cases h1
    | cons c rest =>
      simp only [List.head?_cons, Option.some.injEq] at h1
      subst h1
      have : FirstCut "#".toList (List.replicate k ' ' ++ body ++ '#' :: rest) (List.replicate k ' ' ++ body) rest := by
        refine ⟨by simp, fun a' b' hab => ?_⟩
        by_contra hlt
        have hlt : a'.length < (List.replicate k ' ' ++ body).length := by omega
        have := congrArg (fun l => l[a'.length]?) hab
        rw [List.getElem?_append_left hlt, List.getElem?_eq_getElem hlt, List.append_assoc,
          List.getElem?_append_right (Nat.le_refl _)] at this
        simp only [Nat.sub_self] at this
        exact hb _ (List.getElem_mem hlt) (by simpa using this)
      simp only [this.strstr, Bool.false_eq_true, if_false, List.take_left, dropWhile_spaces k h3]

theorem beginsWith_iff {pre s : Str} : beginsWith pre s = true ↔ pre <+: s := by
  unfold beginsWith
  split
  · rename_i h
    simp only [Bool.false_eq_true, false_iff]
    intro hp
    have := hp.length_le
    omega
  · rw [beq_iff_eq, List.prefix_iff_eq_take]
    exact eq_comm

/-- Rule lines and what is read for them. -/
def RulesRead (parse : Str → Res (Option (Tree V))) (lines : List Str) (rules : List (RewriteRule V)) : Prop :=
  List.Forall₂ (fun l r => parseRule parse l = .ok (some r)) lines rules

theorem filter_cons_empty {l : List Str} : ([] :: l).filter (· ≠ []) = l.filter (· ≠ []) := by simp
theorem filter_cons_ne {b : Str} {l : List Str} (h : b ≠ []) :
    (b :: l).filter (· ≠ []) = b :: l.filter (· ≠ []) := by simp [h]

/-- The loop inside of a ruleset; `rs` are the rules left in it. -/
theorem loop_inside (parse : Str → Res (Option (Tree V))) (N : Nat) (ps : List (Str × Str))
    (h0 : ∀ p ∈ ps, '\x00' ∉ p.1) (hc : ∀ p ∈ ps, Content p.1 p.2) :
    ∀ (cur : Nat) (rs : List Str) (secs : List (Str × List Str)) (out : Nat → List (RewriteRule V)),
      (ps.map (·.2)).filter (· ≠ []) = rs ++ (secs.map fun s => s.1 :: s.2).flatten →
      (∀ r ∈ rs, ¬ Header r) → (∀ s ∈ secs, Header s.1 ∧ ∀ r ∈ s.2, ¬ Header r) →
      cur + secs.length < N →
      (∀ n out', rulesetsLoop parse N (ps.map fun p => p.1 ++ ['\n']) cur out = .ok (n, out') →
        (n = -1 ∧ ∃ r ∈ rs ++ (secs.map (·.2)).flatten, parseRule parse r = .ok none) ∨
        (n = cur + 1 + secs.length ∧
          (∃ l, RulesRead parse rs l ∧ out' cur = out cur ++ l) ∧
          (∀ k (hk : k < secs.length), ∃ l, RulesRead parse secs[k].2 l ∧
            out' (cur + 1 + k) = out (cur + 1 + k) ++ l) ∧ ∀ k < cur, out' k = out k)) ∧
      ((∀ r ∈ rs ++ (secs.map (·.2)).flatten, ∃ x, parseRule parse r = .ok x) →
        ∃ x, rulesetsLoop parse N (ps.map fun p => p.1 ++ ['\n']) cur out = .ok x) := by
  induction ps with
  | nil =>
    intro cur rs secs out he hr hs hN
    have hrs : rs = [] ∧ (secs.map fun s => s.1 :: s.2).flatten = [] := by
      simpa using he
    obtain ⟨rfl, he⟩ := hrs
    have : secs = [] := by
      cases secs with
      | nil => rfl
      | cons s ss => simp at he
    subst this
    refine ⟨fun n out' h => .inr ?_, fun _ => ⟨_, rfl⟩⟩
    simp only [List.map_nil, rulesetsLoop, Res.ok.injEq, Prod.mk.injEq] at h
    obtain ⟨rfl, rfl⟩ := h
    exact ⟨by simp, ⟨[], .nil, by simp⟩, by simp, by simp⟩
  | cons p ps ih =>
    intro cur rs secs out he hr hs hN
    obtain ⟨line, body⟩ := p
    have ih := ih (fun p hp => h0 p (by simp [hp])) (fun p hp => hc p (by simp [hp]))
    have hprep := prepareLine_content (h0 (line, body) (by simp)) (hc (line, body) (by simp))
    simp only [List.map_cons, rulesetsLoop, hprep, Res.bind_ok]
    simp only [List.map_cons] at he
    have hne : ¬ ((cur : Int) = N) := by omega
    have hne1 : ¬ ((cur : Int) = -1) := by omega
    have hgt : ¬ ((cur : Int) > N) := by omega
    by_cases hb : body = []
    · subst hb
      rw [filter_cons_empty] at he
      have hh : beginsWith "RULESET".toList [] = false := rfl
      simp only [hh, Bool.false_eq_true, if_false, hne, List.isEmpty_nil, if_true]
      exact ih cur rs secs out he hr hs hN
    · rw [filter_cons_ne hb] at he
      cases rs with
      | nil =>
        cases secs with
        | nil => simp at he
        | cons s ss =>
          obtain ⟨hd, rs'⟩ := s
          simp only [List.nil_append, List.map_cons, List.flatten_cons, List.cons_append,
            List.cons.injEq] at he
          obtain ⟨rfl, he⟩ := he
          obtain ⟨hhd, hrs'⟩ := hs (body, rs') (by simp)
          have hh : beginsWith "RULESET".toList body = true := beginsWith_iff.2 hhd
          have := ih (cur + 1) rs' ss out he hrs' (fun s hs' => hs s (by simp [hs']))
            (by simp only [List.length_cons] at hN; omega)
          simp only [hh, if_true]
          have hcast : ((cur : Int) + 1) = ((cur + 1 : Nat) : Int) := by omega
          rw [hcast]
          obtain ⟨ih1, ih2⟩ := this
          refine ⟨fun n out' h => ?_, fun hp => ih2 (by simpa using hp)⟩
          rcases ih1 n out' h with ⟨h1, h2⟩ | ⟨h1, ⟨l, h2, h3⟩, h4, h5⟩
          · exact .inl ⟨h1, by simpa using h2⟩
          · refine .inr ⟨by simp only [List.length_cons]; omega, ⟨[], .nil, by simpa using h5 cur (by omega)⟩, ?_,
              fun k hk => h5 k (by omega)⟩
            intro k hk
            cases k with
            | zero => exact ⟨l, h2, h3⟩
            | succ k =>
              obtain ⟨l', h6, h7⟩ := h4 k (by simpa using hk)
              refine ⟨l', by simpa using h6, ?_⟩
              have e : cur + 1 + (k + 1) = cur + 1 + 1 + k := by omega
              rw [e]
              exact h7
      | cons r rs =>
        simp only [List.cons_append, List.cons.injEq] at he
        obtain ⟨rfl, he⟩ := he
        have hh : beginsWith "RULESET".toList body = false := by
          rw [Bool.eq_false_iff]
          exact fun h => hr body (by simp) (beginsWith_iff.1 h)
        have hemp : body.isEmpty = false := by simpa using hb
        simp only [hh, Bool.false_eq_true, if_false, hne, hemp, hne1, hgt, Int.toNat_natCast]
        constructor
        · intro n out' h
          obtain ⟨x, hx, h⟩ := Res.bind_eq_ok.1 h
          cases x with
          | none =>
            simp only [Res.pure_eq, Res.ok.injEq, Prod.mk.injEq] at h
            obtain ⟨rfl, rfl⟩ := h
            exact .inl ⟨rfl, body, by simp, hx⟩
          | some rule =>
            simp only at h
            obtain ⟨ih1, -⟩ := ih cur rs secs (fun k => if k = cur then out k ++ [rule] else out k) he
              (fun r hr' => hr r (by simp [hr'])) hs hN
            rcases ih1 n out' h with ⟨h1, r, h2, h3⟩ | ⟨h1, ⟨l, h2, h3⟩, h4, h5⟩
            · exact .inl ⟨h1, r, by simp at h2 ⊢; exact .inr h2, h3⟩
            · refine .inr ⟨h1, ⟨rule :: l, .cons hx h2, by simpa using h3⟩, ?_, ?_⟩
              · intro k hk
                obtain ⟨l', h6, h7⟩ := h4 k hk
                refine ⟨l', h6, ?_⟩
                rw [if_neg (by omega)] at h7
                exact h7
              · intro k hk
                have := h5 k hk
                rwa [if_neg (by omega)] at this
        · intro hp
          obtain ⟨x, hx⟩ := hp body (by simp)
          rw [hx, Res.bind_ok]
          cases x with
          | none => exact ⟨_, rfl⟩
          | some rule =>
            exact (ih cur rs secs _ he (fun r hr' => hr r (by simp [hr'])) hs hN).2
              fun r hr' => hp r (by simp at hr' ⊢; exact .inr hr')

/-- **C52**, the file (partial: every line is ended by a newline, there are no NUL
characters, no rules in front of the first header, and at most as many rulesets as
there is room for): every line that counts becomes one rule in the ruleset of its
header, in order; or the file is rejected, and then because of one of these lines. -/
theorem C52_file_partial (parse : Str → Res (Option (Tree V))) (N : Nat) {lines : List Str} {text : Str}
    {secs : List (Str × List Str)} (ht : TextOf lines text) (hf : RuleFile lines secs)
    (hN : secs.length ≤ N) :
    (∀ n out, parseRulesets parse N text = .ok (n, out) →
      (n = -1 ∧ ∃ s ∈ secs, ∃ r ∈ s.2, parseRule parse r = .ok none) ∨
      (n = secs.length ∧ ∀ k (hk : k < secs.length), RulesRead parse secs[k].2 (out k))) ∧
    ((∀ s ∈ secs, ∀ r ∈ s.2, ∃ x, parseRule parse r = .ok x) → ∃ x, parseRulesets parse N text = .ok x) := by
  obtain ⟨rfl, hl⟩ := ht
  obtain ⟨⟨ps, rfl, hc, he⟩, hs⟩ := hf
  unfold parseRulesets
  rw [getlines_unlines _ fun l hl' => (hl l hl').1]
  have h0 : ∀ p ∈ ps, '\x00' ∉ p.1 := fun p hp => (hl p.1 (List.mem_map.2 ⟨p, hp, rfl⟩)).2
  clear hl
  rw [List.map_map]
  show (∀ n out, rulesetsLoop parse N (ps.map fun p => p.1 ++ ['\n']) (-1) _ = _ → _) ∧
    (_ → ∃ x, rulesetsLoop parse N (ps.map fun p => p.1 ++ ['\n']) (-1) _ = _)
  induction ps with
  | nil =>
    have : secs = [] := by
      cases secs with
      | nil => rfl
      | cons s ss => simp at he
    subst this
    refine ⟨fun n out h => .inr ?_, fun _ => ⟨_, rfl⟩⟩
    simp only [List.map_nil, rulesetsLoop, Res.ok.injEq, Prod.mk.injEq] at h
    obtain ⟨rfl, rfl⟩ := h
    exact ⟨rfl, by simp⟩
  | cons p ps ih =>
    obtain ⟨line, body⟩ := p
    have hprep := prepareLine_content (h0 (line, body) (by simp)) (hc (line, body) (by simp))
    have h0' : ∀ p ∈ ps, '\x00' ∉ p.1 := fun p hp => h0 p (by simp [hp])
    have hc' : ∀ p ∈ ps, Content p.1 p.2 := fun p hp => hc p (by simp [hp])
    simp only [List.map_cons, rulesetsLoop, hprep, Res.bind_ok]
    simp only [List.map_cons] at he
    by_cases hb : body = []
    · subst hb
      rw [filter_cons_empty] at he
      have hh : beginsWith "RULESET".toList [] = false := rfl
      have hne : ¬ ((-1 : Int) = N) := by omega
      simp only [hh, Bool.false_eq_true, if_false, hne, List.isEmpty_nil, if_true]
      exact ih hc' he h0'
    · rw [filter_cons_ne hb] at he
      cases secs with
      | nil => simp at he
      | cons s ss =>
        obtain ⟨hd, rs⟩ := s
        simp only [List.map_cons, List.flatten_cons, List.cons_append, List.cons.injEq] at he
        obtain ⟨rfl, he⟩ := he
        obtain ⟨hhd, hrs⟩ := hs (body, rs) (by simp)
        have hh : beginsWith "RULESET".toList body = true := beginsWith_iff.2 hhd
        simp only [hh, if_true]
        have := loop_inside parse N ps h0' hc' 0 rs ss (fun _ => []) he hrs (fun s hs' => hs s (by simp [hs']))
          (by simp only [List.length_cons] at hN; omega)
        obtain ⟨h1, h2⟩ := this
        refine ⟨fun n out h => ?_, fun hp => h2 fun r hr => ?_⟩
        · rcases h1 n out h with ⟨h3, r, h4, h5⟩ | ⟨h3, ⟨l, h4, h5⟩, h6, -⟩
          · refine .inl ⟨h3, ?_⟩
            rw [List.mem_append] at h4
            rcases h4 with h4 | h4
            · exact ⟨(body, rs), by simp, r, h4, h5⟩
            · obtain ⟨l, hl, hr⟩ := List.mem_flatten.1 h4
              obtain ⟨s, hs', rfl⟩ := List.mem_map.1 hl
              exact ⟨s, by simp [hs'], r, hr, h5⟩
          · refine .inr ⟨by simp only [List.length_cons]; omega, fun k hk => ?_⟩
            cases k with
            | zero =>
              have : out 0 = l := by simpa using h5
              rw [this]
              exact h4
            | succ k =>
              obtain ⟨l', h7, h8⟩ := h6 k (by simpa using hk)
              have : out (k + 1) = l' := by
                have e : 0 + 1 + k = k + 1 := by omega
                rw [e] at h8
                simpa using h8
              rw [this]
              exact h7
        · rw [List.mem_append] at hr
          rcases hr with hr | hr
          · exact hp (body, rs) (by simp) r hr
          · obtain ⟨l, hl, hr⟩ := List.mem_flatten.1 hr
            obtain ⟨s, hs', rfl⟩ := List.mem_map.1 hl
            exact hp s (by simp [hs']) r hr

/-- The hypotheses are met by a small file with a comment and an indented rule. -/
example : TextOf ["# c".toList, "RULESET".toList, "  x -> y # z".toList]
      "# c\nRULESET\n  x -> y # z\n".toList ∧
    RuleFile ["# c".toList, "RULESET".toList, "  x -> y # z".toList] [("RULESET".toList, ["x -> y ".toList])] := by
  refine ⟨⟨by decide +kernel, by decide +kernel⟩, ⟨[("# c".toList, []), ("RULESET".toList, "RULESET".toList),
    ("  x -> y # z".toList, "x -> y ".toList)], by decide +kernel, ?_, by decide +kernel⟩, ?_⟩
  · intro p hp
    simp only [List.mem_cons, List.not_mem_nil, or_false] at hp
    rcases hp with rfl | rfl | rfl
    · exact ⟨0, "# c".toList, by decide +kernel, by decide +kernel, by decide +kernel, by decide +kernel⟩
    · exact ⟨0, [], by decide +kernel, by decide +kernel, by decide +kernel, by decide +kernel⟩
    · exact ⟨2, "# z".toList, by decide +kernel, by decide +kernel, by decide +kernel, by decide +kernel⟩
  · simp only [List.mem_cons, List.not_mem_nil, or_false, forall_eq, Header]
    decide +kernel

/-- **C52**, negation of the full statement: without a final newline the last character
is lost. -/
theorem C52_newline_witness (parse : Str → Res (Option (Tree V))) :
    parseRulesets parse 7 "RULESET\nx -> 12".toList = parseRulesets parse 7 "RULESET\nx -> 1\n".toList := by
  have h1 : getlines "RULESET\nx -> 12".toList = ["RULESET\n".toList, "x -> 12".toList] := by decide +kernel
  have h2 : getlines "RULESET\nx -> 1\n".toList = ["RULESET\n".toList, "x -> 1\n".toList] := by decide +kernel
  have h3 : prepareLine "x -> 12".toList = prepareLine "x -> 1\n".toList := by decide +kernel
  simp only [parseRulesets, h1, h2, rulesetsLoop, h3]

/-- **C52**, negation of the full statement: a rule in front of the first header is
ignored. -/
theorem C52_first_witness (parse : Str → Res (Option (Tree V))) :
    parseRulesets parse 7 "x -> 1\nRULESET\n".toList = .ok (1, fun _ => []) := by
  rfl

/-- **C52**, negation of the full statement: rules behind the last ruleset there is
room for are ignored. -/
theorem C52_last_witness (parse : Str → Res (Option (Tree V))) :
    parseRulesets parse 1 "RULESET\nRULESET\nx -> 1\n".toList = .ok (1, fun _ => []) := by
  rfl

/-- **C52**, negation of the full statement: with yet another header, the rule is
written outside of the array. -/
theorem C52_overflow_witness (parse : Str → Res (Option (Tree V))) :
    parseRulesets parse 1 "RULESET\nRULESET\nRULESET\nx -> 1\n".toList = .ub := by
  rfl

/-- **C52**, negation of the full statement: a line that starts with NUL is written to
outside of the buffer. -/
theorem C52_nul_witness (parse : Str → Res (Option (Tree V))) :
    parseRulesets parse 7 "RULESET\n\x00\n".toList = .ub := by
  rfl

/-! ## C53 -/

/-- **C53**, negation of the full statement: every file that is rejected is reported as
loaded, and afterwards no rules are in force. -/
theorem C53_malformed_witness (gparse parse : Str → Res (Option (Tree V))) (s : Simp V) (text : Str) (n : Int)
    (rs : Nat → List (RewriteRule V)) (h : parseRulesets parse numRulesets text = .ok (n, rs))
    (hn : n ≠ numRulesets) :
    ∃ s', loadSimplification gparse parse (some text) s = .ok (true, s') ∧ s'.initialized = false := by
  refine ⟨{ s.unload with rulesets := rs }, ?_, ?_⟩
  · simp only [loadSimplification, initSimplification, h, Res.bind_ok, hn, ne_eq, not_false_eq_true,
      if_true, Res.pure_eq]
    rfl
  · unfold Simp.unload
    split
    · rfl
    · rename_i h
      simpa using h

/-- There are such files: a rule without arrow, or only one ruleset. -/
example : parseRulesets toy numRulesets "RULESET\nx\n".toList = .ok (-1, fun _ => []) := rfl
example : parseRulesets toy numRulesets "RULESET\n".toList = .ok (1, fun _ => []) := rfl

/-- **C53**, negation of the full statement: loading a file that does not exist discards
the rules that were in force. -/
theorem C53_missing_witness (gparse parse : Str → Res (Option (Tree V))) (s : Simp V) :
    ∃ s', loadSimplification gparse parse none s = .ok (false, s') ∧ s'.initialized = false := by
  refine ⟨s.unload, rfl, ?_⟩
  unfold Simp.unload
  split
  · rfl
  · rename_i h
    simpa using h

/-- **C53** (partial: it is about files that can not be opened; malformed files are
reported as loaded, and the previous rules do not stay in force): failure is
reported exactly if the file can not be opened, and rules are in force afterwards
exactly if the file has the right number of rulesets; then they are the file's. -/
theorem C53_partial (gparse parse : Str → Res (Option (Tree V))) (s : Simp V) (file : Option Str)
    (b : Bool) (s' : Simp V) (h : loadSimplification gparse parse file s = .ok (b, s')) :
    (b = false ↔ file = none) ∧
    (s'.initialized = true ↔ ∃ text rs, file = some text ∧
      parseRulesets parse numRulesets text = .ok (7, rs) ∧ s'.rulesets = rs) := by
  have hun : s.unload.initialized = false := by
    unfold Simp.unload
    split
    · rfl
    · rename_i h
      simpa using h
  cases file with
  | none =>
    simp only [loadSimplification, initSimplification, Res.pure_eq, Res.bind_ok, if_true, Res.ok.injEq,
      Prod.mk.injEq] at h
    obtain ⟨rfl, rfl⟩ := h
    simp [hun]
  | some text =>
    simp only [loadSimplification, initSimplification] at h
    obtain ⟨⟨count, s1⟩, h1, h⟩ := Res.bind_eq_ok.1 h
    obtain ⟨⟨n, rs⟩, h2, h1⟩ := Res.bind_eq_ok.1 h1
    simp only at h1
    have h7 : ((numRulesets : Nat) : Int) = 7 := rfl
    split at h1
    · rename_i hn
      simp only [Res.pure_eq, Res.ok.injEq, Prod.mk.injEq] at h1
      obtain ⟨rfl, rfl⟩ := h1
      simp only [Res.pure_eq] at h
      rw [if_neg (by decide)] at h
      cases h
      refine ⟨by simp, ?_⟩
      simp only [hun, Bool.false_eq_true, false_iff]
      rintro ⟨t, rs', ht, h3, -⟩
      cases ht
      rw [h2] at h3
      simp only [Res.ok.injEq, Prod.mk.injEq] at h3
      exact hn (by rw [h7]; exact h3.1)
    · rename_i hn
      obtain ⟨be, -, h1⟩ := Res.bind_eq_ok.1 h1
      obtain ⟨af, -, h1⟩ := Res.bind_eq_ok.1 h1
      obtain ⟨ma, -, h1⟩ := Res.bind_eq_ok.1 h1
      simp only [Res.pure_eq, Res.ok.injEq, Prod.mk.injEq] at h1
      obtain ⟨rfl, rfl⟩ := h1
      have : n = 7 := by
        rw [← h7]
        exact Classical.byContradiction hn
      subst this
      simp only [Res.pure_eq] at h
      rw [if_neg (by omega)] at h
      cases h
      refine ⟨by simp, ?_⟩
      simp only [true_iff]
      exact ⟨text, rs, rfl, h2, rfl⟩

end Verif.RuleFileProps
