import Verif.Lemmas.Table
import Verif.Lemmas.Double
import Verif.Props.StringUtil
import Verif.Props.Parser
import Mathlib.Tactic.LinearCombination
import Mathlib.Tactic.Linarith
import Mathlib.Tactic.Positivity
import Mathlib.Tactic.Set

/-!
# Properties of the table command (C43, C44)
-/

namespace Verif.TableProps
open Verif TableSpec TextSpec TreeProps StringProps
variable {V ε ρ : Type} {K : Program V ε ρ} {L : List V → Op → List V → Except ε V} {ve : ε}

/-! ## The command -/

theorem trimmed_unique {s t u : Str} (h : Trimmed s t) (h' : Trimmed s u) : t = u := by
  have key : ∀ {s t : Str}, Trimmed s t →
      t = ((s.dropWhile (· == ' ')).reverse.dropWhile (· == ' ')).reverse := by
    rintro s t ⟨a, b, rfl, ha, hb, h1, h2⟩
    have hd : ∀ l r : Str, (∀ c ∈ l, c = ' ') → r.head? ≠ some ' ' → (l ++ r).dropWhile (· == ' ') = r := by
      intro l r hl hr
      induction l with
      | nil =>
        cases r with
        | nil => rfl
        | cons c r =>
          have : (c == ' ') = false := by simpa using hr
          simp [List.dropWhile_cons, this]
      | cons c l ih =>
        have : c = ' ' := hl c (by simp)
        simp only [List.cons_append, List.dropWhile_cons, this, beq_self_eq_true, if_true]
        exact ih fun c hc => hl c (by simp [hc])
    cases ht : t with
    | nil =>
      have : ∀ c ∈ a ++ b, c = ' ' := by
        intro c hc
        rcases List.mem_append.1 hc with hc | hc
        · exact ha c hc
        · exact hb c hc
      have := hd (a ++ b) [] this (by simp)
      simp only [List.append_nil] at this ⊢
      rw [this]; rfl
    | cons c t' =>
      rw [← ht]
      rw [List.append_assoc, hd a (t ++ b) ha (by rw [ht] at h1 ⊢; simpa using h1), List.reverse_append,
        hd b.reverse t.reverse (by simpa using hb) (by simpa using h2), List.reverse_reverse]
  rw [key h, key h']

theorem forall2_trimmed {ps qs rs : List Str} (h : List.Forall₂ Trimmed ps qs) (h' : List.Forall₂ Trimmed ps rs) :
    qs = rs := by
  induction h generalizing rs with
  | nil => cases h'; rfl
  | cons h1 _ ih =>
    cases h' with
    | cons h2 h3 => rw [trimmed_unique h1 h2, ih h3]

/-- The pieces of a command, trimmed. -/
def Pieces (rest : Str) (qs : List Str) : Prop :=
  ∃ ps, Cut rest [";".toList, ";".toList, ";".toList, " fold ".toList, ";".toList] ps ∧ List.Forall₂ Trimmed ps qs

theorem tableExec_pieces (s : Session V ρ) (rest : Str) (hn : nul ∉ rest) :
    ∃ qs, Pieces rest qs ∧ tableExec K s ("table ".toList ++ rest) =
      if qs.length ≠ 4 ∧ qs.length ≠ 6 then .ok (s, none) else tableExpr K s qs := by
  obtain ⟨ps, hp⟩ := cut_exists rest tableDelims
  obtain ⟨m, os, m', os', h1, h2, h3, -⟩ := C55_pieces 't' "able ".toList rest tableDelims ps (by decide) hn (by decide) hp
  refine ⟨_, ⟨ps, hp, h3⟩, ?_⟩
  have hl1 := h3.length_eq
  have hlo : os.length = os'.length := by
    have : ∀ (os : List Nat) (m m' : Str) (os' : List Nat), stripAll m os = .ok (m', os') → os.length = os'.length := by
      intro os
      induction os with
      | nil => intro m m' os' h; cases h; rfl
      | cons o os ih =>
        intro m m' os' h
        rw [stripAll] at h
        obtain ⟨⟨m1, o1⟩, -, h⟩ := Res.bind_eq_ok.1 h
        obtain ⟨⟨m2, os2⟩, h4, h⟩ := Res.bind_eq_ok.1 h
        cases h
        simp [ih _ _ _ h4]
    exact this _ _ _ _ h2
  unfold tableExec
  have e : strSplit ("table ".toList ++ rest ++ [nul]) tableCommand.length tableDelims = (m, os) := h1
  rw [e]
  simp only [List.length_map, hlo, h2, Out.of_ok, Out.bind_ok]

theorem foldRel_none {col : List V} {a : V} (R : Op → List V → Except ε V) :
    LeftFold (FoldRel K R none) a col a := by
  induction col with
  | nil => exact .nil _
  | cons v col ih => exact .cons rfl ih

theorem show_iff (hK : Computes K L ve) (s s' : Session V ρ) (expr : Tree V) (var : Option Str)
    (hv : ∀ n ∈ expr.names, var = some n) (start stop step : V) (fold : Option (Tree V × V)) (out : TableOut V) :
    tableShow K s expr var start stop step fold = .ok (s', some out) ↔ out.rows.length < K.rounds ∧
      ∃ d, StepTo K start stop step d ∧ Rows K (L s.hist) expr start stop d out.rows ∧
        match fold with
        | none => out.fold = none ∧ s' = s
        | some (f, a) => ∃ r, out.fold = some r ∧ s' = { s with hist := s.hist ++ [r] } ∧
            LeftFold (fun x y r => ValueOr (L s.hist) K.zero (xy x y) f r) a (column out.rows) r := by
  unfold tableShow
  rw [Out.bind_eq_ok]
  obtain ⟨rows, fo⟩ := out
  constructor
  · rintro ⟨⟨w, rows', acc⟩, h1, h2⟩
    obtain ⟨rfl, h3, h4, h5⟩ := (tableLoop_iff hK _ _ _ _ hv ..).1 h1
    cases fold with
    | none =>
      cases h2
      exact ⟨h3, _, (tableStep_iff ..).1 rfl, h4, rfl, rfl⟩
    | some p =>
      cases h2
      exact ⟨h3, _, (tableStep_iff ..).1 rfl, h4, acc, rfl, rfl, h5⟩
  · rintro ⟨h1, d, h2, h3, h4⟩
    have hd := (tableStep_iff ..).2 h2
    rw [hd]
    cases fold with
    | none =>
      obtain ⟨h5, rfl⟩ := h4
      simp only at h5
      subst h5
      exact ⟨(s'.world, rows, K.zero), (tableLoop_iff hK _ _ _ _ hv ..).2 ⟨rfl, h1, h3, foldRel_none _⟩, rfl⟩
    | some p =>
      obtain ⟨r, h5, rfl, h6⟩ := h4
      simp only at h5
      subst h5
      exact ⟨(s.world, rows, r), (tableLoop_iff hK _ _ _ _ hv ..).2 ⟨rfl, h1, h3, h6⟩, rfl⟩

/-- What the pieces after the expression and the bounds ask for. -/
def FoldPart (K : Program V ε ρ) (L : List V → Op → List V → Except ε V) (s : Session V ρ) (more : List Str)
    (rows : List (TableRow V)) (s' : Session V ρ) (fo : Option V) : Prop :=
  more = [] ∧ fo = none ∧ s' = s ∨
  ∃ s1 f i tf ti init r, more = [f, i] ∧ Parses K.toClient s [f, i] s1 [tf, ti] ∧
    (∀ n ∈ tf.varNames, n = "x".toList ∨ n = "y".toList) ∧ ti.varNames = [] ∧
    ValueOr (L s.hist) K.zero (fun _ => none) ti init ∧ fo = some r ∧ s' = { s1 with hist := s.hist ++ [r] } ∧
    LeftFold (fun x y r => ValueOr (L s.hist) K.zero (xy x y) tf r) init (column rows) r

theorem fold_iff (hK : Computes K L ve) (s s' : Session V ρ) (expr : Tree V) (var : Option Str)
    (hv : ∀ n ∈ expr.names, var = some n) (start stop step : V) (more : List Str) (out : TableOut V) :
    tableFold K s expr var start stop step more = .ok (s', some out) ↔ out.rows.length < K.rounds ∧
      ∃ d, StepTo K start stop step d ∧ Rows K (L s.hist) expr start stop d out.rows ∧
        FoldPart K L s more out.rows s' out.fold := by
  cases more with
  | nil =>
    rw [tableFold, show_iff hK _ _ _ _ hv]
    simp [FoldPart]
  | cons m ms =>
    rw [tableFold]
    · rw [Out.bind_eq_ok]
      constructor
      · rintro ⟨⟨s1, o⟩, h1, h2⟩
        simp only at h2
        split at h2
        · rename_i s1 f i heq
          cases heq
          have hp := parses_iff.1 h1
          obtain ⟨w, rfl⟩ := Parses.same hp
          split at h2
          · cases h2
          · rename_i hf
            split at h2
            · cases h2
            · rename_i hi
              obtain ⟨⟨w', a⟩, h3, h4⟩ := Out.bind_eq_ok.1 h2
              obtain ⟨rfl, h3⟩ := (arithEvaluate_iff hK ..).1 h3
              obtain ⟨h5, d, h6, h7, r, h8, h9, h10⟩ := (show_iff hK _ _ _ _ hv ..).1 h4
              refine ⟨h5, d, h6, h7, .inr ?_⟩
              have hl := Parses.length hp
              match ms, hl with
              | [m'], _ =>
                refine ⟨_, m, m', f, i, a, r, rfl, hp, (foldVarsOk_iff f).1 (by simpa using hf), ?_, h3, h8, h9, h10⟩
                rw [C23_count] at hi
                simpa using hi
        · cases h2
      · rintro ⟨h1, d, h2, h3, h4 | ⟨s1, f, i, tf, ti, init, r, h4, h5, h6, h7, h8, h9, rfl, h10⟩⟩
        · cases h4.1
        · refine ⟨_, by rw [h4]; exact parses_iff.2 h5, ?_⟩
          obtain ⟨w, rfl⟩ := Parses.same h5
          simp only
          rw [if_neg (by simpa using (foldVarsOk_iff tf).2 h6), if_neg (by rw [C23_count, h7]; simp)]
          refine Out.bind_eq_ok.2 ⟨_, (arithEvaluate_iff hK ..).2 ⟨rfl, h8⟩, ?_⟩
          exact (show_iff hK _ _ _ _ hv ..).2 ⟨h1, d, h2, h3, r, h9, rfl, h10⟩
    · intro hx; cases hx

theorem bounds_iff (hK : Computes K L ve) (s s' : Session V ρ) (expr : Tree V) (var : Option Str)
    (hv : ∀ n ∈ expr.names, var = some n) (a b c : Str) (more : List Str) (out : TableOut V) :
    tableBounds K s expr var [a, b, c] more = .ok (s', some out) ↔ out.rows.length < K.rounds ∧
      ∃ s1 ta tb tc start stop step d, Parses K.toClient s [a, b, c] s1 [ta, tb, tc] ∧
        ta.varNames = [] ∧ tb.varNames = [] ∧ tc.varNames = [] ∧
        ValueOr (L s.hist) K.zero (fun _ => none) ta start ∧
        ValueOr (L s.hist) K.zero (fun _ => none) tb stop ∧
        ValueOr (L s.hist) K.zero (fun _ => none) tc step ∧ K.eqV step K.zero = false ∧
        StepTo K start stop step d ∧ Rows K (L s.hist) expr start stop d out.rows ∧
        FoldPart K L s1 more out.rows s' out.fold := by
  unfold tableBounds
  rw [Out.bind_eq_ok]
  constructor
  · rintro ⟨⟨s1, o⟩, h1, h2⟩
    simp only at h2
    split at h2
    · rename_i s1 ta tb tc heq
      cases heq
      have hp := parses_iff.1 h1
      obtain ⟨w, rfl⟩ := Parses.same hp
      split at h2
      · cases h2
      · rename_i hc
        simp only [ne_eq, Bool.or_eq_true, decide_eq_true_eq, not_or, Decidable.not_not, C23_count,
          List.length_eq_zero_iff] at hc
        obtain ⟨⟨w1, v1⟩, h3, h2⟩ := Out.bind_eq_ok.1 h2
        obtain ⟨rfl, h3⟩ := (arithEvaluate_iff hK ..).1 h3
        obtain ⟨⟨w2, v2⟩, h4, h2⟩ := Out.bind_eq_ok.1 h2
        obtain ⟨rfl, h4⟩ := (arithEvaluate_iff hK ..).1 h4
        obtain ⟨⟨w3, v3⟩, h5, h2⟩ := Out.bind_eq_ok.1 h2
        obtain ⟨rfl, h5⟩ := (arithEvaluate_iff hK ..).1 h5
        simp only at h2
        split at h2
        · cases h2
        · rename_i h6
          obtain ⟨h7, d, h8, h9, h10⟩ := (fold_iff hK _ _ _ _ hv ..).1 h2
          exact ⟨h7, _, ta, tb, tc, v1, v2, v3, d, hp, hc.1.1, hc.1.2, hc.2, h3, h4, h5, by simpa using h6, h8, h9, h10⟩
    · cases h2
  · rintro ⟨h1, s1, ta, tb, tc, v1, v2, v3, d, hp, ha, hb, hc, h3, h4, h5, h6, h7, h8, h9⟩
    refine ⟨_, parses_iff.2 hp, ?_⟩
    obtain ⟨w, rfl⟩ := Parses.same hp
    simp only
    rw [if_neg (by simp [C23_count, ha, hb, hc])]
    refine Out.bind_eq_ok.2 ⟨_, (arithEvaluate_iff hK ..).2 ⟨rfl, h3⟩, ?_⟩
    refine Out.bind_eq_ok.2 ⟨_, (arithEvaluate_iff hK ..).2 ⟨rfl, h4⟩, ?_⟩
    refine Out.bind_eq_ok.2 ⟨_, (arithEvaluate_iff hK ..).2 ⟨rfl, h5⟩, ?_⟩
    simp only
    rw [if_neg (by simp [h6])]
    exact (fold_iff hK _ _ _ _ hv ..).2 ⟨h1, d, h7, h8, h9⟩

theorem rows_renumbered {M : Op → List V → Except ε V} {f : Str → Nat} {t u : Tree V} (h : Renumbered f t u)
    (start stop d : V) (rows : List (TableRow V)) : Rows K M u start stop d rows ↔ Rows K M t start stop d rows := by
  constructor
  · rintro ⟨h1, h2⟩; exact ⟨h1, fun r hr v => (h2 r hr v).trans (Renumbered.means h v)⟩
  · rintro ⟨h1, h2⟩; exact ⟨h1, fun r hr v => (h2 r hr v).trans (Renumbered.means h v).symm⟩

/-- **C43, C44**, the whole command: `table ...` succeeds exactly if its pieces parse to an expression with at
most one variable, constant bounds and a step that is not 0 (and a fold expression over x and y with a constant initial value);
then the rows are those of the specification, and so is the fold, which becomes the newest result of the history.

The bound `rounds` only replaces "for ever". -/
theorem C43_command (hK : Computes K L ve) (s s' : Session V ρ) (rest : Str) (hn : nul ∉ rest) (out : TableOut V) :
    tableExec K s ("table ".toList ++ rest) = .ok (s', some out) ↔
      out.rows.length < K.rounds ∧ ∃ qs, Pieces rest qs ∧ Tabulates K L s qs s' out := by
  obtain ⟨qs, hq, he⟩ := tableExec_pieces (K := K) s rest hn
  have huniq : ∀ rs, Pieces rest rs → rs = qs := by
    rintro rs ⟨ps, h1, h2⟩
    obtain ⟨ps', h3, h4⟩ := hq
    rw [C55_unique _ _ _ _ h1 h3] at h2
    exact forall2_trimmed h2 h4
  have hex : (∃ rs, Pieces rest rs ∧ Tabulates K L s rs s' out) ↔ Tabulates K L s qs s' out := by
    constructor
    · rintro ⟨rs, h1, h2⟩; rwa [huniq rs h1] at h2
    · exact fun h => ⟨qs, hq, h⟩
  rw [hex, he]
  obtain ⟨rows, fo⟩ := out
  constructor
  · intro h
    split at h
    · cases h
    · rename_i hl
      match qs, hl, h with
      | e :: a :: b :: c :: more, hl, h =>
        rw [tableExpr] at h
        obtain ⟨⟨s1, o⟩, h1, h2⟩ := Out.bind_eq_ok.1 h
        cases o with
        | none => cases h2
        | some te =>
          simp only at h2
          split at h2
          · cases h2
          · rename_i hs
            simp only [Bool.not_eq_true', Bool.not_eq_false] at hs
            obtain ⟨h3, h4⟩ := listVariables_one te
            obtain ⟨h5, f, h6⟩ := h4 hs
            obtain ⟨w, rfl⟩ := arithParse_same h1
            obtain ⟨h7, s2, ta, tb, tc, v1, v2, v3, d, hp, ha, hb, hc, g1, g2, g3, g4, g5, g6, g7⟩ :=
              (bounds_iff hK _ _ _ _ h5 ..).1 h2
            refine ⟨h7, ?_⟩
            rw [rows_renumbered h6] at g6
            obtain ⟨w2, rfl⟩ := Parses.same hp
            rcases g7 with ⟨rfl, rfl, rfl⟩ | ⟨s3, f, i, tf, ti, init, r, rfl, k1, k2, k3, k4, rfl, rfl, k5⟩
            · exact .plain (.cons h1 hp) (h3.1 hs) ha hb hc g1 g2 g3 g4 g5 g6
            · exact .fold (.cons h1 (Parses.append hp k1)) (h3.1 hs) ha hb hc g1 g2 g3 g4 g5 g6 k2 k3 k4 k5
      | [], hl, _ => simp at hl
      | [_], hl, _ => simp at hl
      | [_, _], hl, _ => simp at hl
      | [_, _, _], hl, _ => simp at hl
  · rintro ⟨h7, h⟩
    cases h with
    | @plain e a b c _ te ta tb tc start stop step d _ hp hv ha hb hc g1 g2 g3 g4 g5 g6 =>
      rw [if_neg (by simp), tableExpr]
      cases hp with
      | cons h1 hp =>
        obtain ⟨w, rfl⟩ := arithParse_same h1
        refine Out.bind_eq_ok.2 ⟨_, h1, ?_⟩
        obtain ⟨h3, h4⟩ := listVariables_one te
        obtain ⟨h5, f, h6⟩ := h4 (h3.2 hv)
        simp only
        rw [if_neg (by simp [h3.2 hv])]
        refine (bounds_iff hK _ _ _ _ h5 ..).2 ⟨h7, _, ta, tb, tc, start, stop, step, d, hp, ha, hb, hc, g1, g2, g3, g4, g5,
          (rows_renumbered h6 ..).2 g6, .inl ⟨rfl, rfl, rfl⟩⟩
    | @fold e a b c f i s1 te ta tb tc tf ti start stop step d _ init r hp hv ha hb hc g1 g2 g3 g4 g5 g6 k2 k3 k4 k5 =>
      rw [if_neg (by simp), tableExpr]
      cases hp with
      | cons h1 hp =>
        cases hp with
        | cons p1 hp =>
          cases hp with
          | cons p2 hp =>
            cases hp with
            | cons p3 hp =>
              have hq3 : Parses K.toClient _ [a, b, c] _ [ta, tb, tc] := .cons p1 (.cons p2 (.cons p3 (.nil _)))
              obtain ⟨w, rfl⟩ := arithParse_same h1
              refine Out.bind_eq_ok.2 ⟨_, h1, ?_⟩
              obtain ⟨h3, h4⟩ := listVariables_one te
              obtain ⟨h5, f, h6⟩ := h4 (h3.2 hv)
              obtain ⟨w2, rfl⟩ := Parses.same hq3
              simp only
              rw [if_neg (by simp [h3.2 hv])]
              refine (bounds_iff hK _ _ _ _ h5 ..).2 ⟨h7, _, ta, tb, tc, start, stop, step, d, hq3, ha, hb, hc, g1, g2, g3,
                g4, g5, (rows_renumbered h6 ..).2 g6, .inr ⟨_, _, _, tf, ti, init, r, rfl, hp, k2, k3, k4, rfl, ?_, k5⟩⟩
              rfl

/-- **C43, C44.** Without a fold the history stays; with one it grows by the result. -/
theorem C44_history (s s' : Session V ρ) (qs : List Str) (out : TableOut V)
    (h : Tabulates K L s qs s' out) : s'.ctx = s.ctx ∧ s'.funs = s.funs ∧ s'.hist = s.hist ++ out.fold.toList := by
  cases h with
  | plain hp => obtain ⟨w, rfl⟩ := Parses.same hp; simp
  | fold hp => obtain ⟨w, rfl⟩ := Parses.same hp; simp

theorem leftFold_unique {R : V → V → V → Prop} (hR : ∀ a v b c, R a v b → R a v c → b = c) {a b c : V} {vs : List V}
    (h : LeftFold R a vs b) (h' : LeftFold R a vs c) : b = c := by
  induction h generalizing c with
  | nil => cases h'; rfl
  | cons h1 _ ih =>
    cases h' with
    | cons h2 h3 => rw [hR _ _ _ _ h1 h2] at ih; exact ih h3

/-- **C44**, where it holds: if the left fold of the column exists, that is no combination is an error, it is the result.

Missing: an error in the fold expression counts as 0 and is not reported (`C44_error`). -/
theorem C44_fold_partial (s s' : Session V ρ) (e a b c f i : Str) (out : TableOut V)
    (h : Tabulates K L s [e, a, b, c, f, i] s' out) :
    ∃ s1 te ta tb tc tf ti init r, Parses K.toClient s [e, a, b, c, f, i] s1 [te, ta, tb, tc, tf, ti] ∧
      ValueOr (L s.hist) K.zero (fun _ => none) ti init ∧ out.fold = some r ∧
      ∀ m, LeftFold (fun x y r => Means (L s.hist) (xy x y) tf r) init (column out.rows) m → r = m := by
  cases h with
  | @fold _ _ _ _ _ _ s1 te ta tb tc tf ti start stop step d rows init r hp hv ha hb hc g1 g2 g3 g4 g5 g6 k2 k3 k4 k5 =>
    refine ⟨s1, te, ta, tb, tc, tf, ti, init, r, hp, k4, rfl, fun m hm => ?_⟩
    have hm' : LeftFold (fun x y r => ValueOr (L s.hist) K.zero (xy x y) tf r) init (column rows) m := by
      clear k5
      change LeftFold _ init (column rows) m at hm
      generalize column rows = col at hm ⊢
      clear k4
      induction hm with
      | nil => exact .nil _
      | cons h1 _ ih => exact .cons (.inl h1) ih
    refine leftFold_unique ?_ k5 hm'
    rintro a v b c (h1 | ⟨h1, rfl⟩) (h2 | ⟨h2, rfl⟩)
    · exact Means.unique _ h1 h2
    · exact (h2 _ h1).elim
    · exact (h1 _ h2).elim
    · rfl

/-! ## The rows over numbers -/

theorem positions_unique {add : V → V → V} {inside : V → Prop} {x d : V} {ps qs : List V}
    (h : Positions add inside x d ps) (h' : Positions add inside x d qs) : ps = qs := by
  have hle : ∀ {ps qs : List V}, Positions add inside x d ps → Positions add inside x d qs → ps.length ≤ qs.length := by
    intro ps qs h h'
    by_contra hlt
    exact h'.stop (h.pos qs.length (by omega) ▸ h.within _ (List.getElem_mem _))
  have hl : ps.length = qs.length := Nat.le_antisymm (hle h h') (hle h' h)
  exact List.ext_getElem hl fun k h1 h2 => by rw [h.pos k h1, h'.pos k h2]

theorem positions_of_first {add : V → V → V} {inside : V → Prop} {x d : V} (j : Nat) (h : ¬ inside (nth add x d j)) :
    ∃ ps, Positions add inside x d ps ∧ ps.length ≤ j := by
  classical
  have hex : ∃ j, ¬ inside (nth add x d j) := ⟨j, h⟩
  refine ⟨(List.range (Nat.find hex)).map (nth add x d), ⟨?_, ?_, ?_⟩, ?_⟩
  · intro k hk; simp
  · intro p hp
    obtain ⟨k, hk, rfl⟩ := List.mem_map.1 hp
    by_contra hc
    exact Nat.find_min hex (List.mem_range.1 hk) hc
  · simpa using Nat.find_spec hex
  · simpa using Nat.find_min' hex h

/-- The program computes with doubles; `r` rounds. -/
structure IsDbl (K : Program Dbl ε ρ) (r : ℚ → Dbl) : Prop where
  zero : K.zero = .fin 0
  lt : K.lt = Dbl.lt
  le : K.le = Dbl.le
  add : K.add = Dbl.add r
  neg : K.neg = Dbl.neg
  eq : K.eqV = Dbl.eq

/-- The step in the direction of the end. -/
def towards (a b c : ℚ) : ℚ := if a < b then |c| else if b < a then -|c| else c

theorem directed_fin {K : Program Dbl ε ρ} {r : ℚ → Dbl} (hD : IsDbl K r) (a b c : ℚ) (d : Dbl) :
    StepTo K (.fin a) (.fin b) (.fin c) d ↔ d = .fin (towards a b c) := by
  unfold StepTo towards
  rw [hD.lt, hD.zero, hD.neg]
  simp only [Dbl.lt, Dbl.neg, decide_eq_true_eq]
  rcases lt_trichotomy a b with h | h | h
  · have h' : ¬ b < a := not_lt.2 h.le
    by_cases hc : c < 0
    · simp [h, hc, abs_of_neg hc]
    · simp [h, h', hc, abs_of_nonneg (not_lt.1 hc)]
  · simp [h]
  · have h' : ¬ a < b := not_lt.2 h.le
    by_cases hc : 0 < c
    · simp [h, h', hc, abs_of_pos hc]
    · simp [h, h', hc, abs_of_nonpos (not_lt.1 hc)]

theorem inside_fin {K : Program Dbl ε ρ} {r : ℚ → Dbl} (hD : IsDbl K r) (b c q : ℚ) :
    Inside K (.fin b) (.fin c) (.fin q) ↔ if 0 < c then q ≤ b else b ≤ q := by
  unfold Inside
  rw [hD.lt, hD.le, hD.zero]
  simp only [Dbl.lt, Dbl.le, Dbl.eq, decide_eq_true_eq, Bool.or_eq_true, beq_iff_eq]
  split <;> exact le_iff_lt_or_eq.symm

/-- The direction as a sign. -/
theorem sign_cases {e : ℚ} (he : e ≠ 0) : ∃ σ : ℚ, (σ = 1 ∨ σ = -1) ∧ e = σ * |e| ∧
    ∀ b q : ℚ, (if 0 < e then q ≤ b else b ≤ q) ↔ σ * q ≤ σ * b := by
  rcases lt_or_gt_of_ne he with h | h
  · exact ⟨-1, .inr rfl, by rw [abs_of_neg h]; ring, fun b q => by rw [if_neg (not_lt.2 h.le)]; constructor <;> intro <;> linarith⟩
  · exact ⟨1, .inl rfl, by rw [abs_of_pos h]; ring, fun b q => by rw [if_pos h]; constructor <;> intro <;> linarith⟩

theorem towards_ne {a b c : ℚ} (hc : c ≠ 0) : towards a b c ≠ 0 := by
  unfold towards
  split
  · simpa using hc
  · split
    · simpa using hc
    · exact hc

theorem towards_abs (a b c : ℚ) : |towards a b c| = |c| := by
  unfold towards
  split
  · simp
  · split <;> simp

/-- **C43**, where the sums are exact: the positions are start, start + step, ... with the step
in the direction of the end, all that do not lie beyond it, and no others; in particular the loop ends.

Missing: sums that are rounded (`C43_missed`, `C43_endless`). -/
theorem C43_exact_partial {K : Program Dbl ε ρ} {r : ℚ → Dbl} (hD : IsDbl K r) (a b c : ℚ) (hc : c ≠ 0) (d : Dbl)
    (hd : StepTo K (.fin a) (.fin b) (.fin c) d)
    (hr : ∀ k : ℕ, (k : ℚ) ≤ |b - a| / |c| → r (a + k * towards a b c + towards a b c) = .fin (a + k * towards a b c + towards a b c))
    (ps : List Dbl) :
    Positions K.add (Inside K (.fin b) d) (.fin a) d ps ↔
      ps = (List.range (⌊|b - a| / |c|⌋₊ + 1)).map fun k : ℕ => Dbl.fin (a + k * towards a b c) := by
  rw [directed_fin hD] at hd
  subst hd
  have he := towards_ne (a := a) (b := b) hc
  have hm : 0 < |c| := abs_pos.2 hc
  have hab : ∀ σ : ℚ, (σ = 1 ∨ σ = -1) → towards a b c = σ * |towards a b c| → σ * (b - a) = |b - a| := by
    intro σ hσ h1
    rw [towards_abs] at h1
    unfold towards at h1
    rcases lt_trichotomy a b with h | h | h
    · rw [if_pos h] at h1
      have : σ = 1 := by nlinarith
      rw [this, abs_of_pos (by linarith)]; ring
    · simp [h]
    · rw [if_neg (not_lt.2 h.le), if_pos h] at h1
      have : σ = -1 := by nlinarith
      rw [this, abs_of_neg (by linarith)]; ring
  obtain ⟨σ, hσ, h1, h2⟩ := sign_cases he
  have h3 := hab σ hσ h1
  have hσ2 : σ * σ = 1 := by rcases hσ with h | h <;> rw [h] <;> norm_num
  rw [towards_abs] at h1
  have hin : ∀ k : ℕ, Inside K (.fin b) (.fin (towards a b c)) (.fin (a + k * towards a b c)) ↔ (k : ℚ) ≤ |b - a| / |c| := by
    intro k
    rw [inside_fin hD, h2, le_div_iff₀ hm, ← h3]
    have : σ * (a + k * towards a b c) = σ * a + k * |c| := by
      rw [h1]; linear_combination (k : ℚ) * |c| * hσ2
    rw [this, mul_sub]
    constructor <;> intro h <;> linarith
  have hnth : ∀ k : ℕ, k ≤ ⌊|b - a| / |c|⌋₊ + 1 → nth K.add (.fin a) (.fin (towards a b c)) k = .fin (a + k * towards a b c) := by
    intro k
    induction k with
    | zero => intro _; simp [nth]
    | succ k ih =>
      intro hk
      have hk' : (k : ℚ) ≤ |b - a| / |c| := (Nat.le_floor_iff (by positivity)).1 (by omega)
      rw [nth, ih (by omega), hD.add, Dbl.add, hr k hk']
      congr 1
      push_cast; ring
  have hmain : Positions K.add (Inside K (.fin b) (.fin (towards a b c))) (.fin a) (.fin (towards a b c))
      ((List.range (⌊|b - a| / |c|⌋₊ + 1)).map fun k : ℕ => Dbl.fin (a + k * towards a b c)) := by
    refine ⟨?_, ?_, ?_⟩
    · intro k hk
      simp only [List.length_map, List.length_range] at hk
      rw [hnth k (by omega)]; simp
    · intro p hp
      obtain ⟨k, hk, rfl⟩ := List.mem_map.1 hp
      rw [List.mem_range] at hk
      exact (hin k).2 ((Nat.le_floor_iff (by positivity)).1 (by omega))
    · simp only [List.length_map, List.length_range]
      rw [hnth _ (le_refl _), hin]
      push_cast
      have := Nat.lt_floor_add_one (|b - a| / |c|)
      linarith
  constructor
  · intro h; exact positions_unique h hmain
  · rintro rfl; exact hmain

/-- **C43** for whole numbers up to 2^53: no rounding takes place. -/
theorem C43_integers {K : Program Dbl ε ρ} (hD : IsDbl K Dbl.round) (a b c : ℤ) (hc : c ≠ 0) (d : Dbl)
    (ha : |a| + |c| ≤ 2 ^ 53) (hb : |b| + |c| ≤ 2 ^ 53) (hd : StepTo K (.fin a) (.fin b) (.fin c) d) (ps : List Dbl) :
    Positions K.add (Inside K (.fin b) d) (.fin a) d ps ↔
      ps = (List.range (⌊|(b : ℚ) - a| / |(c : ℚ)|⌋₊ + 1)).map fun k : ℕ => Dbl.fin (a + k * towards a b c) := by
  refine C43_exact_partial hD a b c (by exact_mod_cast hc) d hd ?_ ps
  intro k hk
  have hm : (0 : ℚ) < |(c : ℚ)| := abs_pos.2 (by exact_mod_cast hc)
  rw [le_div_iff₀ hm] at hk
  obtain ⟨e, he⟩ : ∃ e : ℤ, (e : ℚ) = towards a b c := by
    unfold towards
    split
    · exact ⟨|c|, by simp⟩
    · split
      · exact ⟨-|c|, by simp⟩
      · exact ⟨c, rfl⟩
  have hee : |(e : ℚ)| = |(c : ℚ)| := by rw [he, towards_abs]
  have hbetween : |(a : ℚ) + k * towards a b c| ≤ max |(a : ℚ)| |(b : ℚ)| := by
    unfold towards
    rcases lt_trichotomy (a : ℚ) b with h | h | h
    · rw [if_pos h]
      rw [abs_of_pos (by linarith : (0 : ℚ) < b - a)] at hk
      have h0 : (0 : ℚ) ≤ k * |(c : ℚ)| := by positivity
      rw [abs_le]
      constructor
      · have := neg_abs_le (a : ℚ); have := le_max_left |(a : ℚ)| |(b : ℚ)|; linarith
      · have := le_abs_self (b : ℚ); have := le_max_right |(a : ℚ)| |(b : ℚ)|; linarith
    · rw [h] at hk
      simp only [sub_self, abs_zero] at hk
      have : (k : ℚ) = 0 := by
        have h0 : (0 : ℚ) ≤ k := by positivity
        nlinarith
      rw [this]; simp
    · rw [if_neg (not_lt.2 h.le), if_pos h]
      rw [abs_of_neg (by linarith : (b : ℚ) - a < 0)] at hk
      have h0 : (0 : ℚ) ≤ k * |(c : ℚ)| := by positivity
      rw [abs_le]
      constructor
      · have := neg_abs_le (b : ℚ); have := le_max_right |(a : ℚ)| |(b : ℚ)|; linarith
      · have := le_abs_self (a : ℚ); have := le_max_left |(a : ℚ)| |(b : ℚ)|; linarith
  have hfin : |a + k * e + e| ≤ 2 ^ 53 := by
    have h1 : |(a : ℚ) + k * e + e| ≤ |(a : ℚ) + k * e| + |(e : ℚ)| := abs_add_le _ _
    rw [← he] at hbetween
    have h2 : (|a + k * e + e| : ℤ) ≤ max |a| |b| + |c| := by
      have : (|(a : ℚ) + k * e + e|) ≤ max |(a : ℚ)| |(b : ℚ)| + |(c : ℚ)| := by rw [hee] at h1; linarith
      exact_mod_cast this
    rcases le_total |a| |b| with h | h
    · rw [max_eq_right h] at h2; omega
    · rw [max_eq_left h] at h2; omega
  have := Dbl.round_int hfin
  rw [← he]
  push_cast at this
  exact this

/-- **C43**, the end itself is a row exactly if a whole number of steps leads to it. -/
theorem C43_end (a b c : ℚ) (hc : c ≠ 0) :
    Dbl.fin b ∈ ((List.range (⌊|b - a| / |c|⌋₊ + 1)).map fun k : ℕ => Dbl.fin (a + k * towards a b c)) ↔
      ∃ k : ℕ, |b - a| = k * |c| := by
  have hm : 0 < |c| := abs_pos.2 hc
  have key : ∀ k : ℕ, (k : ℚ) ≤ |b - a| / |c| → (a + k * towards a b c = b ↔ |b - a| = k * |c|) := by
    intro k hk
    rw [le_div_iff₀ hm] at hk
    unfold towards
    rcases lt_trichotomy a b with h | h | h
    · rw [if_pos h, abs_of_pos (by linarith : 0 < b - a)]
      constructor <;> intro h <;> linarith
    · subst h
      simp only [sub_self, abs_zero] at hk ⊢
      have h0 : (0 : ℚ) ≤ k := by positivity
      have : (k : ℚ) = 0 := by nlinarith
      simp [this]
    · rw [if_neg (not_lt.2 h.le), if_pos h, abs_of_neg (by linarith : b - a < 0)]
      constructor <;> intro h <;> linarith
  constructor
  · intro h
    obtain ⟨k, hk, h⟩ := List.mem_map.1 h
    have hk' := (Nat.le_floor_iff (by positivity)).1 (Nat.lt_succ_iff.1 (List.mem_range.1 hk))
    exact ⟨k, (key k hk').1 (Dbl.fin.inj h)⟩
  · rintro ⟨k, hk⟩
    have hk' : (k : ℚ) ≤ |b - a| / |c| := by rw [le_div_iff₀ hm]; linarith
    refine List.mem_map.2 ⟨k, List.mem_range.2 (Nat.lt_succ_iff.2 ((Nat.le_floor_iff (by positivity)).2 hk')), ?_⟩
    rw [(key k hk').2 hk]

/-- **C43**, termination with rounding: if every sum is off by at most `δ`, less than the step, the
loop ends; there are at most `|b - a| / (|c| - δ) + 1` rows. -/
theorem C43_terminates_partial {K : Program Dbl ε ρ} {r : ℚ → Dbl} (hD : IsDbl K r) (a b c δ : ℚ) (hδ : δ < |c|) (d : Dbl)
    (h0 : 0 ≤ δ) (hd : StepTo K (.fin a) (.fin b) (.fin c) d)
    (hr : ∀ q, |q| ≤ max |a| |b| → ∃ q', r (q + towards a b c) = .fin q' ∧ |q' - (q + towards a b c)| ≤ δ) :
    ∃ ps, Positions K.add (Inside K (.fin b) d) (.fin a) d ps ∧ ps.length ≤ ⌊|b - a| / (|c| - δ)⌋₊ + 1 := by
  rw [directed_fin hD] at hd
  subst hd
  have hc : c ≠ 0 := by rintro rfl; simp at hδ; linarith
  obtain ⟨σ, hσ, h1, h2⟩ := sign_cases (towards_ne (a := a) (b := b) hc)
  rw [towards_abs] at h1
  have hσ2 : σ * σ = 1 := by rcases hσ with h | h <;> rw [h] <;> norm_num
  set e := towards a b c with he
  have hin : ∀ q, Inside K (.fin b) (.fin e) (.fin q) ↔ σ * q ≤ σ * b := fun q => by rw [inside_fin hD, h2]
  set n := ⌊|b - a| / (|c| - δ)⌋₊ with hn
  by_contra hno
  have hall : ∀ k ≤ n + 1, Inside K (.fin b) (.fin e) (nth K.add (.fin a) (.fin e) k) := by
    intro k hk
    by_contra hk'
    obtain ⟨ps, hp, hl⟩ := positions_of_first k hk'
    exact hno ⟨ps, hp, by omega⟩
  have hstep : ∀ k ≤ n + 1, ∃ q, nth K.add (.fin a) (.fin e) k = .fin q ∧ σ * a + k * (|c| - δ) ≤ σ * q := by
    intro k
    induction k with
    | zero => intro _; exact ⟨a, rfl, by simp⟩
    | succ k ih =>
      intro hk
      obtain ⟨q, hq, hle⟩ := ih (by omega)
      have hi := hall k (by omega)
      rw [hq, hin] at hi
      have hkn : (0 : ℚ) ≤ k * (|c| - δ) := mul_nonneg (by positivity) (by linarith)
      have hqm : |q| ≤ max |a| |b| := by
        have h3 := le_max_left |a| |b|
        have h4 := le_max_right |a| |b|
        have h5 := neg_abs_le a
        have h6 := neg_abs_le b
        have h7 := le_abs_self a
        have h8 := le_abs_self b
        rw [abs_le]
        rcases hσ with h | h <;> rw [h] at hi hle <;> constructor <;> linarith
      obtain ⟨q', hq', hle'⟩ := hr q hqm
      refine ⟨q', by rw [nth, hq, hD.add, Dbl.add, hq'], ?_⟩
      rw [abs_le] at hle'
      have hse : σ * e = |c| := by
        calc σ * e = σ * (σ * |c|) := by rw [← h1]
          _ = |c| := by rw [← mul_assoc, hσ2, one_mul]
      push_cast
      rcases hσ with h | h <;> rw [h] at hle hse ⊢ <;> nlinarith [hle'.1, hle'.2]
  obtain ⟨q, hq, hle⟩ := hstep (n + 1) (le_refl _)
  have hi := hall (n + 1) (le_refl _)
  rw [hq, hin] at hi
  have hpos : 0 < |c| - δ := by linarith
  have hlt := Nat.lt_floor_add_one (|b - a| / (|c| - δ))
  rw [← hn, div_lt_iff₀ hpos] at hlt
  have hba : σ * b - σ * a ≤ |b - a| := by
    rw [← mul_sub]
    rcases hσ with h | h <;> rw [h]
    · rw [one_mul]; exact le_abs_self _
    · rw [neg_one_mul]; exact neg_le_abs _
  push_cast at hle
  linarith

/-- **C43**, termination with doubles: the loop ends if the step is larger than the distance of the doubles around the bounds.
The second condition on `c` holds for all doubles but 0. -/
theorem C43_doubles_partial {K : Program Dbl ε ρ} (hD : IsDbl K Dbl.round) (a b c : ℚ) (d : Dbl)
    (hM : max |a| |b| + |c| ≤ 2 ^ (1023 : ℕ)) (h1 : (max |a| |b| + |c|) * 2 ^ (-53 : ℤ) < |c|) (h2 : 2 ^ (-1075 : ℤ) < |c|)
    (hd : StepTo K (.fin a) (.fin b) (.fin c) d) :
    ∃ ps, Positions K.add (Inside K (.fin b) d) (.fin a) d ps := by
  obtain ⟨ps, hp, -⟩ := C43_terminates_partial hD a b c (max ((max |a| |b| + |c|) * 2 ^ (-53 : ℤ)) (2 ^ (-1075 : ℤ)))
    (max_lt h1 h2) d (le_max_of_le_right (zpow_pos (by norm_num) _).le) hd (fun q hq => by
      have hle : |q + towards a b c| ≤ max |a| |b| + |c| := by
        have := abs_add_le q (towards a b c)
        rw [towards_abs] at this
        linarith
      obtain ⟨q', h3, h4⟩ := Dbl.round_error (q + towards a b c) (hle.trans hM)
      refine ⟨q', h3, h4.trans (max_le_max ?_ le_rfl)⟩
      exact mul_le_mul_of_nonneg_right hle (by positivity))
  exact ⟨ps, hp⟩

/-- **C43** fails: with doubles, the table from 2^53 to 2^53 + 2 in steps of 1 never ends. -/
theorem C43_endless {K : Program Dbl ε ρ} {L : List Dbl → Op → List Dbl → Except ε Dbl} {ve : ε} (hK : Computes K L ve)
    (hD : IsDbl K Dbl.round) (s : Session Dbl ρ) (expr : Tree Dbl) (var : Option Str) (fold : Option (Tree Dbl × Dbl)) :
    tableShow K s expr var (.fin (2 ^ 53)) (.fin (2 ^ 53 + 2)) (.fin 1) fold = .hang := by
  have hd : tableStep K (.fin (2 ^ 53)) (.fin (2 ^ 53 + 2)) (.fin 1) = .fin 1 :=
    (tableStep_iff ..).2 ((directed_fin hD ..).2 (by rw [towards, if_pos (by norm_num)]; simp))
  have hnth : ∀ k, nth K.add (.fin (2 ^ 53)) (.fin 1) k = .fin (2 ^ 53) := by
    intro k
    induction k with
    | zero => rfl
    | succ k ih =>
      have : Dbl.round (2 ^ 53 + 1) = .fin (2 ^ 53) := by decide +kernel
      rw [nth, ih, hD.add, Dbl.add, this]
  have hl : ∀ acc, tableLoop K s.hist expr var (fold.map (·.1)) (.fin (2 ^ 53 + 2)) (.fin 1) K.rounds s.world
      (.fin (2 ^ 53)) acc = .hang := by
    intro acc
    rcases tableLoop_cases hK s.hist expr var (fold.map (·.1)) (.fin (2 ^ 53 + 2)) (.fin 1) K.rounds s.world
      (.fin (2 ^ 53)) acc with ⟨-, j, -, h⟩ | ⟨h, -⟩
    · rw [hnth, inside_fin hD] at h
      exact (h (by norm_num)).elim
    · exact h
  unfold tableShow
  rw [hd, hl]
  rfl

/-! ## Concrete tables -/

/-- Functions of the C library are not used here. -/
def lib0 : Dbl.Lib := ⟨fun _ _ => .nan, fun _ _ => .nan, fun _ _ => .nan⟩

/-- Some numerals. -/
def numerals : Str → Option Dbl := fun s =>
  if s = "0.3".toList then some (.round (3 / 10)) else if s = "0.1".toList then some (.round (1 / 10))
  else (ParserProps.digit s).map fun n => .fin n

/-- A program that computes with doubles and does no simplification. -/
def W : Program Dbl EvalErr Unit where
  strtod := numerals
  eqV := Dbl.eq
  simp _ _ t := .ok ((), .ok t)
  fuel := 1000
  reduce w h t := .ok (w, match treeReduce (evalOp (Dbl.arith Dbl.round lib0) h 0 100) (.code .variableEncountered) t [] with
    | .ok v => .ok v
    | .error e => .error e.1)
  zero := .fin 0
  lt := Dbl.lt
  le := Dbl.le
  add := Dbl.add Dbl.round
  neg := Dbl.neg
  rounds := 20
  files _ := none
  initSimp w _ _ := .ok (w, true)

theorem W_computes : Computes W (fun h => evalOp (Dbl.arith Dbl.round lib0) h 0 100) (.code .variableEncountered) := by
  intro w h t
  simp only [W]
  cases treeReduce (evalOp (Dbl.arith Dbl.round lib0) h 0 100) (.code .variableEncountered) t [] <;> rfl

theorem W_dbl : IsDbl W Dbl.round := ⟨rfl, rfl, rfl, rfl, rfl, rfl⟩

/-- What the command shows in a new session, and the history afterwards. -/
def shows (input : String) : Out (Option (TableOut Dbl) × List Dbl) := do
  let s ← Out.of (initSession ())
  let (s', r) ← tableExec W s input.toList
  pure (r, s'.hist)

/-- A table with an error row and a fold. -/
example : shows "table 6/x; 2 ; 1-2 ; 1 fold x+y;1" = .ok (some ⟨[⟨.fin 2, some (.fin 3)⟩, ⟨.fin 1, some (.fin 6)⟩,
    ⟨.fin 0, none⟩, ⟨.fin (-1), some (.fin (-6))⟩], some (.fin 4)⟩, [.fin 4]) := by decide +kernel

example : shows "table x;1;2;0" = .ok (none, []) ∧ shows "table x*z;1;2;1" = .ok (none, []) ∧
    shows "table x;1;z;1" = .ok (none, []) ∧ shows "table x;1;2" = .ok (none, []) := by decide +kernel

/-- **C43** fails: three steps of 0.1 lead from 0 to 0.3, but the row of 0.3 is missing. -/
theorem C43_missed : ∃ p q, shows "table x;0;0.3;0.1" = .ok (some ⟨[⟨.fin 0, some (.fin 0)⟩, ⟨.fin p, some (.fin p)⟩,
    ⟨.fin q, some (.fin q)⟩], none⟩, []) ∧ q < 1 / 4 :=
  ⟨3602879701896397 / 36028797018963968, 3602879701896397 / 18014398509481984, by decide +kernel, by norm_num⟩

/-- **C44** fails: the first combination, 5 + 1/(1-1), is an error; the result is 0 + 1/(2-1). -/
theorem C44_error : shows "table x;1;2;1 fold x+1/(y-1);5" =
    .ok (some ⟨[⟨.fin 1, some (.fin 1)⟩, ⟨.fin 2, some (.fin 2)⟩], some (.fin 1)⟩, [.fin 1]) := by decide +kernel

end Verif.TableProps
