import Verif.Spec.Table
import Verif.Props.TreeUtil

/-!
# Lemmas about the table command
-/

namespace Verif
open TableSpec TreeProps
variable {V ε ρ : Type}

theorem Means.congr {L : Op → List V → Except ε V} {σ τ : Str → Option V} {t : Tree V} {v : V}
    (h : Means L σ t v) (hn : ∀ n ∈ t.names, σ n = τ n) : Means L τ t v := by
  induction t using Tree.induct generalizing v with
  | hc => cases h; exact .const
  | hv => cases h with | var h => exact .var (by rw [← hn _ (by simp [Tree.names])]; exact h)
  | ho o cs i ih =>
    obtain ⟨vs, h1, h2⟩ := Means.op_iff.1 h
    refine Means.op_iff.2 ⟨vs, ?_, h2⟩
    simp only [Tree.names] at hn
    clear h h2
    induction h1 with
    | nil => exact .nil
    | cons h _ ih' =>
      simp only [Tree.namesList, List.mem_append] at hn
      exact .cons (ih _ (by simp) h fun n hm => hn n (.inl hm))
        (ih' (fun c hc => ih c (by simp [hc])) fun n hm => hn n (.inr hm))

/-- Replacing variables by numbers is assigning the numbers to them. -/
theorem Means.subst {L : Op → List V → Except ε V} {σ τ : Str → Option V} {t u : Tree V}
    (h : Subst (fun n => (σ n).map fun x => .const x 0) t u) (v : V) :
    Means L τ u v ↔ Means L (fun n => (σ n).or (τ n)) t v := by
  induction h generalizing v with
  | const => constructor <;> (intro h; cases h; exact .const)
  | @hit n x i r hr =>
    cases hs : σ n with
    | none => rw [hs] at hr; cases hr
    | some y =>
      rw [hs] at hr
      cases hr
      constructor
      · intro h; cases h; exact .var (by simp [hs])
      · intro h
        cases h with
        | var h =>
          simp only [hs, Option.some_or, Option.some.injEq] at h
          subst h; exact .const
  | @miss n x i hr =>
    cases hs : σ n with
    | some y => rw [hs] at hr; cases hr
    | none =>
      constructor
      · intro h; cases h with | var h => exact .var (by simpa [hs] using h)
      · intro h; cases h with | var h => exact .var (by simpa [hs] using h)
  | op hl _ ih =>
    constructor
    · intro h
      cases h with
      | op hl' h1 h2 => exact .op (hl.trans hl') (fun k hk => (ih k hk _).1 (h1 k (hl ▸ hk))) h2
    · intro h
      cases h with
      | op hl' h1 h2 => exact .op (hl.symm.trans hl') (fun k hk => (ih k (hl ▸ hk) _).2 (h1 k (hl ▸ hk))) h2

theorem Renumbered.means {L : Op → List V → Except ε V} {σ : Str → Option V} {f : Str → Nat} {t u : Tree V}
    (h : Renumbered f t u) (v : V) : Means L σ u v ↔ Means L σ t v := by
  induction h generalizing v with
  | const => rfl
  | var => constructor <;> (intro h; cases h with | var h => exact .var h)
  | op hl _ ih =>
    constructor
    · intro h
      cases h with
      | op hl' h1 h2 => exact .op (hl.trans hl') (fun k hk => (ih k hk _).1 (h1 k (hl ▸ hk))) h2
    · intro h
      cases h with
      | op hl' h1 h2 => exact .op (hl.symm.trans hl') (fun k hk => (ih k (hl ▸ hk) _).2 (h1 k (hl ▸ hk))) h2

/-- One replacement. -/
theorem replaceVar_means {L : Op → List V → Except ε V} {τ : Str → Option V} (x : V) (n : Str) (t : Tree V) (v : V) :
    Means L τ (replaceVar (.const x 0) n t).1 v ↔ Means L (fun m => if m = n then some x else τ m) t v := by
  have h := ((C23_replace (.const x 0) t _ n).1).1 rfl
  have h' : Subst (fun m => ((fun m => if m = n then some x else none : Str → Option V) m).map fun x => .const x 0) t
      (replaceVar (.const x 0) n t).1 := by
    convert h using 2
    split <;> simp [*]
  rw [Means.subst h']
  have : (fun m => ((fun m => if m = n then some x else none : Str → Option V) m).or (τ m)) =
      fun m => if m = n then some x else τ m := by
    funext m
    split <;> simp [*]
  rw [this]

/-- The value at a row. -/
theorem rowTree_means {L : Op → List V → Except ε V} (var : Option Str) (x : V) (t : Tree V)
    (hv : ∀ n ∈ t.names, var = some n) (v : V) :
    Means L (fun _ => none) (rowTree var x t) v ↔ Means L (fun _ => some x) t v := by
  cases var with
  | none =>
    rw [rowTree, treeCopy_eq]
    constructor <;> exact fun h => h.congr fun n hn => by cases hv n hn
  | some m =>
    rw [rowTree, treeCopy_eq, replaceVar_means]
    constructor <;> exact fun h => h.congr fun n hn => by cases hv n hn; simp

/-- The value of a fold expression. -/
theorem foldTree_means {L : Op → List V → Except ε V} (x y : V) (t : Tree V) (v : V) :
    Means L (fun _ => none) (foldTree x y t) v ↔ Means L (xy x y) t v := by
  rw [foldTree, treeCopy_eq, replaceVar_means, replaceVar_means]
  rfl

variable {K : Program V ε ρ} {L : List V → Op → List V → Except ε V} {ve : ε}

theorem reduce_ok (hK : Computes K L ve) (w : ρ) (hist : List V) (t : Tree V) :
    (∃ v, K.reduce w hist t = .ok (w, .ok v) ∧ Means (L hist) (fun _ => none) t v) ∨
    (∃ e, K.reduce w hist t = .ok (w, .error e)) ∧ ∀ v, ¬ Means (L hist) (fun _ => none) t v := by
  rw [hK]
  cases h : treeReduce (L hist) ve t [] with
  | ok v => exact .inl ⟨v, rfl, (C24_value _ _ _ _).1 h⟩
  | error e =>
    refine .inr ⟨⟨e.1, rfl⟩, fun v hv => ?_⟩
    rw [(C24_value _ ve _ _).2 hv] at h
    cases h

theorem arithEvaluate_iff (hK : Computes K L ve) (w w' : ρ) (hist : List V) (t : Tree V) (v : V) :
    arithEvaluate K w hist t = .ok (w', v) ↔ w' = w ∧ ValueOr (L hist) K.zero (fun _ => none) t v := by
  unfold arithEvaluate
  rcases reduce_ok hK w hist t with ⟨u, h1, h2⟩ | ⟨⟨e, h1⟩, h2⟩
  · rw [h1]
    simp only [Out.bind_ok, Out.pure_eq, Out.ok.injEq, Prod.mk.injEq]
    constructor
    · rintro ⟨rfl, rfl⟩; exact ⟨rfl, .inl h2⟩
    · rintro ⟨rfl, h | h⟩
      · exact ⟨rfl, Means.unique _ h2 h⟩
      · exact (h.1 _ h2).elim
  · rw [h1]
    simp only [Out.bind_ok, Out.pure_eq, Out.ok.injEq, Prod.mk.injEq]
    constructor
    · rintro ⟨rfl, rfl⟩; exact ⟨rfl, .inr ⟨h2, rfl⟩⟩
    · rintro ⟨rfl, h | h⟩
      · exact (h2 _ h).elim
      · exact ⟨rfl, h.2.symm⟩

theorem arithEvaluate_total (hK : Computes K L ve) (w : ρ) (hist : List V) (t : Tree V) :
    ∃ v, arithEvaluate K w hist t = .ok (w, v) := by
  unfold arithEvaluate
  rcases reduce_ok hK w hist t with ⟨u, h1, h2⟩ | ⟨⟨e, h1⟩, h2⟩ <;> rw [h1]
  · exact ⟨u, rfl⟩
  · exact ⟨K.zero, rfl⟩

/-- Combination of two numbers by the fold expression, if there is one. -/
def FoldRel (K : Program V ε ρ) (L : Op → List V → Except ε V) (fold : Option (Tree V)) (x y r : V) : Prop :=
  match fold with
  | none => r = x
  | some f => ValueOr L K.zero (xy x y) f r

theorem foldStep_iff (hK : Computes K L ve) (hist : List V) (fold : Option (Tree V)) (w w' : ρ) (acc v r : V) :
    foldStep K hist fold w acc v = .ok (w', r) ↔ w' = w ∧ FoldRel K (L hist) fold acc v r := by
  cases fold with
  | none =>
    simp only [foldStep, FoldRel, Out.ok.injEq, Prod.mk.injEq]
    constructor <;> (rintro ⟨rfl, rfl⟩; exact ⟨rfl, rfl⟩)
  | some f =>
    rw [foldStep, arithEvaluate_iff hK]
    simp only [FoldRel, ValueOr, foldTree_means]

theorem foldStep_total (hK : Computes K L ve) (hist : List V) (fold : Option (Tree V)) (w : ρ) (acc v : V) :
    ∃ r, foldStep K hist fold w acc v = .ok (w, r) := by
  cases fold with
  | none => exact ⟨acc, rfl⟩
  | some f => exact arithEvaluate_total hK _ _ _

theorem inRange_iff (stop d x : V) : inRange K stop d x = true ↔ Inside K stop d x := by
  unfold inRange Inside
  split <;> rfl

theorem nth_succ (add : V → V → V) (x d : V) (k : Nat) : nth add (add x d) d k = nth add x d (k + 1) := by
  induction k with
  | zero => rfl
  | succ k ih => rw [nth, ih]; rfl

theorem Positions.cons {add : V → V → V} {inside : V → Prop} {x d : V} {ps : List V} (h : inside x)
    (hp : Positions add inside (add x d) d ps) : Positions add inside x d (x :: ps) := by
  refine ⟨?_, ?_, ?_⟩
  · rintro (_ | k) hk
    · rfl
    · rw [List.getElem_cons_succ, hp.pos k (by simpa using hk), nth_succ]
  · rintro p hp'
    rcases List.mem_cons.1 hp' with rfl | hp'
    · exact h
    · exact hp.within p hp'
  · have := hp.stop
    rwa [nth_succ] at this

theorem Positions.uncons {add : V → V → V} {inside : V → Prop} {x d p : V} {ps : List V}
    (hp : Positions add inside x d (p :: ps)) : p = x ∧ inside x ∧ Positions add inside (add x d) d ps := by
  have h0 : p = x := hp.pos 0 (by simp)
  refine ⟨h0, h0 ▸ hp.within p (by simp), ?_, fun q hq => hp.within q (by simp [hq]), ?_⟩
  · intro k hk
    have := hp.pos (k + 1) (by simpa using hk)
    rw [List.getElem_cons_succ] at this
    rw [this, nth_succ]
  · rw [nth_succ]; exact hp.stop

/-- One row. -/
theorem tableRow_iff (hK : Computes K L ve) (hist : List V) (expr : Tree V) (var : Option Str) (fold : Option (Tree V))
    (hv : ∀ n ∈ expr.names, var = some n) (w w' : ρ) (x acc acc' : V) (o : Option V) :
    tableRow K hist expr var fold w x acc = .ok (w', o, acc') ↔ w' = w ∧
      (∀ v, o = some v ↔ Means (L hist) (fun _ => some x) expr v) ∧
      LeftFold (FoldRel K (L hist) fold) acc o.toList acc' := by
  unfold tableRow
  rcases reduce_ok hK w hist (rowTree var x expr) with ⟨u, h1, h2⟩ | ⟨⟨e, h1⟩, h2⟩
  · rw [h1]
    rw [rowTree_means _ _ _ hv] at h2
    simp only [Out.bind_ok, Out.pure_eq]
    rw [Out.bind_eq_ok]
    constructor
    · rintro ⟨⟨w2, r⟩, h3, h4⟩
      obtain ⟨rfl, h5⟩ := (foldStep_iff hK ..).1 h3
      cases h4
      refine ⟨rfl, fun v => ⟨fun h => by cases h; exact h2, fun h => by rw [Means.unique _ h2 h]⟩, .cons h5 (.nil _)⟩
    · rintro ⟨rfl, h3, h4⟩
      have ho := (h3 u).2 h2
      subst ho
      cases h4 with
      | cons h5 h6 =>
        cases h6
        exact ⟨(w', acc'), (foldStep_iff hK ..).2 ⟨rfl, h5⟩, rfl⟩
  · rw [h1]
    simp only [rowTree_means _ _ _ hv] at h2
    simp only [Out.bind_ok, Out.pure_eq, Out.ok.injEq, Prod.mk.injEq]
    constructor
    · rintro ⟨rfl, rfl, rfl⟩
      exact ⟨rfl, fun v => ⟨nofun, fun h => (h2 v h).elim⟩, .nil _⟩
    · rintro ⟨rfl, h3, h4⟩
      cases o with
      | some v => exact (h2 v ((h3 v).1 rfl)).elim
      | none => cases h4; exact ⟨rfl, rfl, rfl⟩

theorem tableRow_total (hK : Computes K L ve) (hist : List V) (expr : Tree V) (var : Option Str) (fold : Option (Tree V))
    (w : ρ) (x acc : V) : ∃ o acc', tableRow K hist expr var fold w x acc = .ok (w, o, acc') := by
  unfold tableRow
  rcases reduce_ok hK w hist (rowTree var x expr) with ⟨u, h1, h2⟩ | ⟨⟨e, h1⟩, h2⟩
  · obtain ⟨r, hr⟩ := foldStep_total hK hist fold w acc u
    exact ⟨some u, r, by rw [h1]; simp only [Out.bind_ok]; rw [hr]; rfl⟩
  · exact ⟨none, acc, by rw [h1]; rfl⟩

theorem LeftFold.append {R : V → V → V → Prop} {a b c : V} {xs ys : List V} (h : LeftFold R a xs b)
    (h' : LeftFold R b ys c) : LeftFold R a (xs ++ ys) c := by
  induction h with
  | nil => exact h'
  | cons h1 _ ih => exact .cons h1 (ih h')

theorem LeftFold.split {R : V → V → V → Prop} {a c : V} {xs ys : List V} (h : LeftFold R a (xs ++ ys) c) :
    ∃ b, LeftFold R a xs b ∧ LeftFold R b ys c := by
  induction xs generalizing a with
  | nil => exact ⟨a, .nil _, h⟩
  | cons x xs ih =>
    cases h with
    | cons h1 h2 =>
      obtain ⟨b, h3, h4⟩ := ih h2
      exact ⟨b, .cons h1 h3, h4⟩

theorem column_cons (x : V) (o : Option V) (rows : List (TableRow V)) :
    column (⟨x, o⟩ :: rows) = o.toList ++ column rows := by
  cases o <;> rfl

/-- The loop. -/
theorem tableLoop_iff (hK : Computes K L ve) (hist : List V) (expr : Tree V) (var : Option Str) (fold : Option (Tree V))
    (hv : ∀ n ∈ expr.names, var = some n) (stop d : V) (k : Nat) (w w' : ρ) (x acc acc' : V) (rows : List (TableRow V)) :
    tableLoop K hist expr var fold stop d k w x acc = .ok (w', rows, acc') ↔ w' = w ∧ rows.length < k ∧
      Rows K (L hist) expr x stop d rows ∧ LeftFold (FoldRel K (L hist) fold) acc (column rows) acc' := by
  induction k generalizing w w' x acc acc' rows with
  | zero => simp [tableLoop]
  | succ k ih =>
    rw [tableLoop]
    by_cases hi : inRange K stop d x = true
    · rw [if_pos hi, Out.bind_eq_ok]
      rw [inRange_iff] at hi
      constructor
      · rintro ⟨⟨w1, o, acc1⟩, h1, h2⟩
        obtain ⟨⟨w2, rows2, acc2⟩, h3, h4⟩ := Out.bind_eq_ok.1 h2
        cases h4
        obtain ⟨rfl, h5, h6⟩ := (tableRow_iff hK hist expr var fold hv ..).1 h1
        obtain ⟨rfl, h7, h8, h9⟩ := (ih ..).1 h3
        refine ⟨rfl, by simpa using h7, ⟨Positions.cons hi h8.positions, ?_⟩, ?_⟩
        · intro row hr
          rcases List.mem_cons.1 hr with rfl | hr
          · exact h5
          · exact h8.values row hr
        · rw [column_cons]; exact LeftFold.append h6 h9
      · rintro ⟨rfl, h1, h2, h3⟩
        cases rows with
        | nil => exact (h2.positions.stop hi).elim
        | cons row rows =>
          obtain ⟨p, o⟩ := row
          obtain ⟨rfl, -, h4⟩ := Positions.uncons h2.positions
          rw [column_cons] at h3
          obtain ⟨b, h5, h6⟩ := LeftFold.split h3
          refine ⟨(w', o, b), (tableRow_iff hK hist expr var fold hv ..).2
            ⟨rfl, h2.values ⟨p, o⟩ (by simp), h5⟩, ?_⟩
          refine Out.bind_eq_ok.2 ⟨(w', rows, acc'), (ih ..).2 ⟨rfl, by simpa using h1, ⟨h4, fun row hr =>
            h2.values row (by simp [hr])⟩, h6⟩, rfl⟩
    · rw [if_neg hi]
      rw [inRange_iff] at hi
      simp only [Out.ok.injEq, Prod.mk.injEq]
      constructor
      · rintro ⟨rfl, rfl, rfl⟩
        refine ⟨rfl, by simp, ⟨⟨?_, by simp, hi⟩, by simp⟩, .nil _⟩
        intro k hk
        simp at hk
      · rintro ⟨rfl, -, h2, h3⟩
        cases rows with
        | nil => cases h3; exact ⟨rfl, rfl, rfl⟩
        | cons row rows =>
          exact (hi (Positions.uncons h2.positions).2.1).elim

/-- The loop hangs exactly if the end is not reached within the bound. -/
theorem tableLoop_cases (hK : Computes K L ve) (hist : List V) (expr : Tree V) (var : Option Str) (fold : Option (Tree V))
    (stop d : V) (k : Nat) (w : ρ) (x acc : V) :
    (∃ r, tableLoop K hist expr var fold stop d k w x acc = .ok r) ∧ (∃ j < k, ¬ Inside K stop d (nth K.add x d j)) ∨
    tableLoop K hist expr var fold stop d k w x acc = .hang ∧ ∀ j < k, Inside K stop d (nth K.add x d j) := by
  induction k generalizing x acc with
  | zero => exact .inr ⟨rfl, by simp⟩
  | succ k ih =>
    rw [tableLoop]
    by_cases hi : inRange K stop d x = true
    · rw [if_pos hi]
      rw [inRange_iff] at hi
      obtain ⟨o, acc1, h1⟩ := tableRow_total hK hist expr var fold w x acc
      rw [h1]
      simp only [Out.bind_ok]
      rcases ih (K.add x d) acc1 with ⟨⟨r, h2⟩, j, hj, h3⟩ | ⟨h2, h3⟩
      · rw [h2]
        rw [nth_succ] at h3
        exact .inl ⟨⟨_, rfl⟩, j + 1, by omega, h3⟩
      · rw [h2]
        refine .inr ⟨rfl, ?_⟩
        rintro (_ | j) hj
        · exact hi
        · rw [← nth_succ]; exact h3 j (by omega)
    · rw [if_neg hi]
      rw [inRange_iff] at hi
      exact .inl ⟨⟨_, rfl⟩, 0, by omega, hi⟩

theorem tableStep_iff (start stop step d : V) : tableStep K start stop step = d ↔ StepTo K start stop step d := by
  unfold tableStep StepTo
  simp only [Bool.or_eq_true, Bool.and_eq_true]
  split <;> exact eq_comm

/-- Parsing changes the world only. -/
theorem arithParse_same {K : Client V ε ρ} {s s' : Session V ρ} {i : Str} {r : Option (Tree V)}
    (h : arithParse K s i = .ok (s', r)) : ∃ w, s' = { s with world := w } := by
  unfold arithParse at h
  obtain ⟨o, h1, h2⟩ := Out.bind_eq_ok.1 h
  cases o with
  | none => cases h2; exact ⟨s.world, rfl⟩
  | some t =>
    obtain ⟨⟨w, r'⟩, h3, h4⟩ := Out.bind_eq_ok.1 h2
    cases h4
    exact ⟨w, rfl⟩

theorem parseAll_same {K : Client V ε ρ} {is : List Str} : ∀ {s s' : Session V ρ} {r : Option (List (Tree V))},
    parseAll K s is = .ok (s', r) → ∃ w, s' = { s with world := w } := by
  induction is with
  | nil => intro s s' r h; cases h; exact ⟨s.world, rfl⟩
  | cons i is ih =>
    intro s s' r h
    rw [parseAll] at h
    obtain ⟨⟨s1, o⟩, h1, h2⟩ := Out.bind_eq_ok.1 h
    obtain ⟨w, rfl⟩ := arithParse_same h1
    cases o with
    | none => cases h2; exact ⟨w, rfl⟩
    | some t =>
      obtain ⟨⟨s2, us⟩, h3, h4⟩ := Out.bind_eq_ok.1 h2
      cases h4
      obtain ⟨w', rfl⟩ := ih h3
      exact ⟨w', rfl⟩

theorem parses_iff {K : Client V ε ρ} {is : List Str} {s s' : Session V ρ} {ts : List (Tree V)} :
    parseAll K s is = .ok (s', some ts) ↔ Parses K s is s' ts := by
  induction is generalizing s ts with
  | nil =>
    constructor
    · intro h; cases h; exact .nil _
    · intro h; cases h; rfl
  | cons i is ih =>
    rw [parseAll, Out.bind_eq_ok]
    constructor
    · rintro ⟨⟨s1, o⟩, h1, h2⟩
      cases o with
      | none => cases h2
      | some t =>
        obtain ⟨⟨s2, us⟩, h3, h4⟩ := Out.bind_eq_ok.1 h2
        cases us with
        | none => cases h4
        | some us => cases h4; exact .cons h1 (ih.1 h3)
    · intro h
      cases h with
      | cons h1 h2 => exact ⟨_, h1, Out.bind_eq_ok.2 ⟨_, ih.2 h2, rfl⟩⟩

theorem Parses.length {K : Client V ε ρ} {is : List Str} {s s' : Session V ρ} {ts : List (Tree V)}
    (h : Parses K s is s' ts) : ts.length = is.length := by
  induction h with
  | nil => rfl
  | cons _ _ ih => simp [ih]

theorem Parses.same {K : Client V ε ρ} {is : List Str} {s s' : Session V ρ} {ts : List (Tree V)}
    (h : Parses K s is s' ts) : ∃ w, s' = { s with world := w } :=
  parseAll_same (parses_iff.2 h)

theorem Parses.append {K : Client V ε ρ} {is js : List Str} {s s1 s2 : Session V ρ} {ts us : List (Tree V)}
    (h : Parses K s is s1 ts) (h' : Parses K s1 js s2 us) : Parses K s (is ++ js) s2 (ts ++ us) := by
  induction h with
  | nil => exact h'
  | cons h1 _ ih => exact .cons h1 (ih h')

/-- The test of the fold expression. -/
theorem foldVarsOk_iff (f : Tree V) : foldVarsOk f = true ↔ ∀ n ∈ f.varNames, n = "x".toList ∨ n = "y".toList := by
  unfold foldVarsOk
  have hcount : ∀ n : Str, (varNodes n f [] 0 0).1 = f.varNames.count n := by
    intro n
    rw [(C58_variable_nodes n f 0).1, Tree.varNames]
    generalize f.preorder [] = l
    induction l with
    | nil => rfl
    | cons x l ih =>
      obtain ⟨p, t⟩ := x
      cases t with
      | const => simpa [List.filter_cons, Tree.isVar] using ih
      | op => simpa [List.filter_cons, Tree.isVar] using ih
      | var m x i =>
        by_cases h : m = n <;> simpa [List.filter_cons, Tree.isVar, List.count_cons, h] using ih
  rw [C23_count, hcount, hcount, beq_iff_eq]
  have key : ∀ l : List Str, l.length - l.count "x".toList - l.count "y".toList = 0 ↔
      ∀ n ∈ l, n = "x".toList ∨ n = "y".toList := by
    have hxy : "x".toList ≠ "y".toList := by decide
    generalize "x".toList = x at hxy ⊢
    generalize "y".toList = y at hxy ⊢
    have hle : ∀ l : List Str, l.count x + l.count y ≤ l.length := by
      intro l
      induction l with
      | nil => simp
      | cons n l ih =>
        simp only [List.count_cons, List.length_cons]
        by_cases h1 : n = x
        · subst h1; simp [hxy]; omega
        · by_cases h2 : n = y
          · subst h2; simp [h1]; omega
          · simp [h1, h2]; omega
    intro l
    induction l with
    | nil => simp
    | cons n l ih =>
      simp only [List.count_cons, List.length_cons, List.mem_cons, forall_eq_or_imp]
      have := hle l
      by_cases h1 : n = x
      · subst h1; simp only [beq_self_eq_true, if_true, beq_iff_eq, if_neg hxy, true_or, true_and]; rw [← ih]; omega
      · by_cases h2 : n = y
        · subst h2; simp only [beq_self_eq_true, if_true, beq_iff_eq, if_neg h1, or_true, true_and]; rw [← ih]; omega
        · simp only [beq_iff_eq, if_neg h1, if_neg h2]
          simp only [h1, h2, or_self, false_and, iff_false]; omega
  exact key _

theorem atMostOne {names vs : List Str} (h : FirstOccurrences names vs) :
    vs.length ≤ 1 ↔ ∀ m ∈ names, ∀ n ∈ names, m = n := by
  constructor
  · intro hl m hm n hn
    rw [← h.mem] at hm hn
    match vs, hl, hm, hn with
    | [v], _, hm, hn => simp at hm hn; rw [hm, hn]
  · intro ha
    match vs, h with
    | [], _ => simp
    | [_], _ => simp
    | a :: b :: l, h =>
      have := ha a ((h.mem a).1 (by simp)) b ((h.mem b).1 (by simp))
      have hd := h.nodup
      rw [this] at hd
      simp at hd

theorem Renumbered.names {f : Str → Nat} {t u : Tree V} (h : Renumbered f t u) : u.names = t.names := by
  induction t using Tree.induct generalizing u with
  | hc => cases h; rfl
  | hv => cases h; rfl
  | ho o cs i ih =>
    cases h with
    | @op _ _ ds _ hl h5 =>
      have hf : ∀ l : List (Tree V), Tree.namesList l = (l.map Tree.names).flatten := by
        intro l
        induction l with
        | nil => rfl
        | cons c l ih => simp [Tree.namesList, ih]
      simp only [Tree.names, hf]
      congr 1
      refine List.ext_getElem (by simp [hl]) fun k h6 h7 => ?_
      simp only [List.getElem_map]
      exact ih _ (List.getElem_mem _) (h5 k (by simpa [hl] using h6))

/-- The variable of the expression. -/
theorem listVariables_one (t : Tree V) :
    ((listVariables 1 t).sufficient = true ↔ ∀ m ∈ t.varNames, ∀ n ∈ t.varNames, m = n) ∧
    ((listVariables 1 t).sufficient = true →
      (∀ n ∈ (listVariables 1 t).tree.names, (listVariables 1 t).vars.head? = some n) ∧
      ∃ f, Renumbered f t (listVariables 1 t).tree) := by
  obtain ⟨vs, hvs⟩ := C22_exists t.varNames
  have h := C22_list_variables 1 t vs hvs
  rw [← atMostOne hvs]
  by_cases hl : vs.length ≤ 1
  · rw [if_pos hl] at h
    obtain ⟨h1, h2, h3, h4⟩ := h
    refine ⟨by simp [h1, hl], fun _ => ⟨?_, _, h4⟩⟩
    have hn := Renumbered.names h4
    intro n hm
    rw [hn, ← varNames_eq, ← hvs.mem] at hm
    rw [h2]
    match vs, hl, hm with
    | [v], _, hm => simp at hm; simp [hm]
  · rw [if_neg hl] at h
    refine ⟨by simp [h.1, hl], fun h' => ?_⟩
    rw [h.1] at h'; cases h'

end Verif
