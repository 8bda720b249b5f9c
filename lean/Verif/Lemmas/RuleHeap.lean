import Verif.Lemmas.SessionMemory
import Verif.Spec.MemoryProgram
import Mathlib.Data.List.Perm.Basic

/-!
# Lemmas on rules in memory
-/

namespace Verif
open MemorySpec OwnershipProps OperandsSpec
variable {V ε : Type}

/-! ## Several trees in memory -/

/-- The trees with their addresses, in a memory that otherwise is `base`. -/
def OwnsP (base : Nat → Option (Cell V)) (L : List (Tree V × Nat)) (g : Nat → Option (Cell V)) : Prop :=
  Owns base (L.map (·.1)) (L.map (·.2)) g

/-- None of the trees takes more calls. -/
def Shallow (n : Nat) (L : List (Tree V × Nat)) : Prop := ∀ x ∈ L, calls x.1 ≤ n

theorem holdsAll_perm {g : Nat → Option (Cell V)} {L L' : List (Tree V × Nat)} (h : L.Perm L') :
    ∀ {S}, OwnershipSpec.HoldsAll g (L.map (·.1)) (L.map (·.2)) S →
    ∃ S', OwnershipSpec.HoldsAll g (L'.map (·.1)) (L'.map (·.2)) S' ∧ S.Perm S' := by
  induction h with
  | nil => exact fun {S} h => ⟨S, h, .refl _⟩
  | cons x _ ih =>
    rintro S ⟨p, qs, S1, S2, h1, rfl, h3, h4⟩
    cases h1
    obtain ⟨S', k1, k2⟩ := ih h4
    exact ⟨S1 ++ S', ⟨_, _, S1, S', rfl, rfl, h3, k1⟩, k2.append_left S1⟩
  | swap x y l =>
    rintro S ⟨p, qs, S1, S2, h1, rfl, h3, p', qs', T1, T2, k1, rfl, k3, k4⟩
    cases h1
    cases k1
    refine ⟨T1 ++ (S1 ++ T2), ⟨_, _, T1, S1 ++ T2, rfl, rfl, k3, _, _, S1, T2, rfl, rfl, h3, k4⟩, ?_⟩
    rw [← List.append_assoc, ← List.append_assoc]
    exact List.perm_append_comm.append_right T2
  | trans _ _ ih1 ih2 =>
    intro S h
    obtain ⟨S1, k1, k2⟩ := ih1 h
    obtain ⟨S2, k3, k4⟩ := ih2 k1
    exact ⟨S2, k3, k2.trans k4⟩

theorem OwnsP.perm {base g : Nat → Option (Cell V)} {L L' : List (Tree V × Nat)} (h : OwnsP base L g)
    (hp : L.Perm L') : OwnsP base L' g := by
  obtain ⟨S, h1, h2, h3, h4⟩ := h
  obtain ⟨S', k1, k2⟩ := holdsAll_perm hp h1
  exact ⟨S', k1, k2.nodup h2, fun a ha => h3 a (k2.mem_iff.2 ha), fun a ha => h4 a fun h => ha (k2.mem_iff.1 h)⟩

theorem ownsP_nil {base g : Nat → Option (Cell V)} : OwnsP base [] g ↔ g = base := by
  refine ⟨fun ⟨S, ⟨_, h1⟩, _, _, h4⟩ => ?_, fun h => ⟨[], ⟨rfl, rfl⟩, List.nodup_nil, by simp, fun a _ => by rw [h]⟩⟩
  subst h1
  funext a
  exact h4 a (by simp)

/-- First one thing is added, then another. -/
theorem OwnsP.trans {g1 g2 g3 : Nat → Option (Cell V)} {L L' : List (Tree V × Nat)} (h : OwnsP g1 L g2)
    (k : OwnsP g2 L' g3) : OwnsP g1 (L ++ L') g3 := by
  obtain ⟨S, h1, h2, h3, h4⟩ := h
  obtain ⟨T, k1, k2, k3, k4⟩ := k
  have hd : ∀ a ∈ S, a ∉ T := fun a ha ht => h1.live a ha (k3 a ht)
  refine ⟨S ++ T, ?_, ?_, ?_, ?_⟩
  · rw [List.map_append, List.map_append]
    exact (h1.congr fun a ha => k4 a (hd a ha)).append k1
  · rw [List.nodup_append]
    exact ⟨h2, k2, fun a ha b hb e => hd a ha (e ▸ hb)⟩
  · intro a ha
    rcases List.mem_append.mp ha with ha | ha
    · exact h3 a ha
    · by_cases hS : a ∈ S
      · exact h3 a hS
      · rw [← h4 a hS]; exact k3 a ha
  · intro a ha
    rw [List.mem_append, not_or] at ha
    rw [k4 a ha.2, h4 a ha.1]

/-- Some of the trees, with the rest as part of the memory. -/
theorem OwnsP.split {base g : Nat → Option (Cell V)} {L L' : List (Tree V × Nat)} (h : OwnsP base (L ++ L') g) :
    ∃ g', OwnsP base L g' ∧ OwnsP g' L' g := by
  obtain ⟨S, h1, h2, h3, h4⟩ := h
  rw [List.map_append, List.map_append] at h1
  obtain ⟨p1, p2, S1, S2, e1, rfl, h5, h6⟩ := h1.split
  have hl : p1.length = (L.map (·.2)).length := by rw [h5.length]; simp
  obtain ⟨rfl, rfl⟩ := List.append_inj e1 hl.symm
  have hn := List.nodup_append.mp h2
  refine ⟨fun a => if a ∈ S2 then none else g a, ⟨S1, h5.congr fun a ha => ?_, hn.1, fun a ha => h3 a (by simp [ha]), ?_⟩,
    S2, h6, hn.2.1, fun a ha => by simp [ha], fun a ha => by simp [ha]⟩
  · rw [if_neg fun h => hn.2.2 a ha a h rfl]
  · intro a ha
    by_cases h : a ∈ S2
    · simp only [h, if_true]; exact (h3 a (by simp [h])).symm
    · simp only [h, if_false]; exact h4 a (by simp [ha, h])

theorem OwnsP.one {base g : Nat → Option (Cell V)} {t : Tree V} {p : Nat} (h : OwnsP base [(t, p)] g) :
    ∃ S, OwnershipSpec.Holds g t p S ∧ S.Nodup ∧ (∀ a ∈ S, base a = none) ∧ ∀ a, a ∉ S → g a = base a := by
  obtain ⟨S, ⟨q, qs, S1, S2, e, rfl, h1, e1, rfl⟩, h2, h3, h4⟩ := h
  cases e
  simp only [List.append_nil] at h2 h3 h4
  exact ⟨S1, h1, h2, h3, h4⟩

theorem OwnsP.of_one {base g : Nat → Option (Cell V)} {t : Tree V} {p : Nat} {S : List Nat}
    (h1 : OwnershipSpec.Holds g t p S) (h2 : S.Nodup) (h3 : ∀ a ∈ S, base a = none)
    (h4 : ∀ a, a ∉ S → g a = base a) : OwnsP base [(t, p)] g :=
  ⟨S, ⟨p, [], S, [], rfl, by simp, h1, rfl, rfl⟩, h2, h3, h4⟩

theorem OwnsP.of_exchanged {m m' : Mem V} {t : Tree V} {p : Nat} {T : List Nat}
    (h : OwnershipSpec.Exchanged m.get m'.get [] t p T) : OwnsP m.get [(t, p)] m'.get :=
  .of_one h.holds h.nodup (fun a ha => (h.fresh a ha).resolve_left (by simp)) fun a ha => h.frame a (by simp) ha

/-- A change inside of one of the trees. -/
theorem OwnsP.change {base : Nat → Option (Cell V)} {t : Tree V} {p : Nat} {L : List (Tree V × Nat)} {m : Mem V}
    (h : OwnsP base ((t, p) :: L) m.get) : ∃ S, OwnershipSpec.Holds m.get t p S ∧ S.Nodup ∧
      ∀ (t' : Tree V) (m' : Mem V), OwnershipSpec.Holds m'.get t' p S → (∀ a, a ∉ S → m'.get a = m.get a) →
        OwnsP base ((t', p) :: L) m'.get := by
  have hp : OwnsP base (L ++ [(t, p)]) m.get := h.perm (List.perm_append_singleton _ _).symm
  obtain ⟨g, h1, h2⟩ := hp.split
  obtain ⟨S, k1, k2, k3, k4⟩ := h2.one
  refine ⟨S, k1, k2, fun t' m' e1 e2 => ?_⟩
  exact (h1.trans (.of_one e1 k2 k3 fun a ha => by rw [e2 a ha, k4 a ha])).perm (List.perm_append_singleton _ _)

/-- Freeing one of the trees. -/
theorem OwnsP.free {base : Nat → Option (Cell V)} {t : Tree V} {p : Nat} {L : List (Tree V × Nat)} {m : Mem V}
    (h : OwnsP base ((t, p) :: L) m.get) {deep : Nat} (hd : calls t ≤ deep) :
    ∃ m', freeTree deep m (some p) = .ok m' ∧ OwnsP base L m'.get := by
  have hp : OwnsP base (L ++ [(t, p)]) m.get := h.perm (List.perm_append_singleton _ _).symm
  obtain ⟨g, h1, h2⟩ := hp.split
  obtain ⟨S, k1, k2, k3, k4⟩ := h2.one
  obtain ⟨m', e1, e2, -⟩ := freeTree_spec k1 k2 hd
  refine ⟨m', e1, ?_⟩
  have : m'.get = g := by
    funext a
    rw [e2 a]
    by_cases ha : a ∈ S
    · rw [if_pos ha, k3 a ha]
    · rw [if_neg ha, k4 a ha]
  rw [this]
  exact h1

/-- Freeing some of the trees. -/
theorem OwnsP.freeTrees {base : Nat → Option (Cell V)} {deep : Nat} : ∀ {L L' : List (Tree V × Nat)} {m : Mem V},
    OwnsP base (L ++ L') m.get → Shallow deep L →
    ∃ m', Verif.freeTrees deep (L.map (·.2)) m = .ok m' ∧ OwnsP base L' m'.get
  | [], L', m, h, _ => ⟨m, rfl, h⟩
  | (t, p) :: L, L', m, h, hw => by
    obtain ⟨m1, e1, e2⟩ := OwnsP.free (L := L ++ L') h (hw (t, p) (by simp))
    obtain ⟨m2, e3, e4⟩ := OwnsP.freeTrees e2 fun x hx => hw x (by simp [hx])
    exact ⟨m2, by simp [Verif.freeTrees, e1, e3], e4⟩

theorem freeTrees_append (deep : Nat) : ∀ (ps qs : List Nat) (m : Mem V),
    freeTrees deep (ps ++ qs) m = (freeTrees deep ps m).bind (freeTrees deep qs)
  | [], qs, m => rfl
  | p :: ps, qs, m => by
    simp only [List.cons_append, freeTrees]
    cases freeTree deep m (some p) with
    | ok m' => exact freeTrees_append deep ps qs m'
    | hang => rfl
    | defect => rfl
    | ub => rfl

/-! ## Parsing -/

/-- A parser in memory does what a parser does that returns trees as values. -/
structure Parses (pv : Str → Res (Option (Tree V))) (pm : Str → Mem V → Out (Option Nat × Mem V)) : Prop where
  some : ∀ s t, pv s = .ok (some t) → ∀ m : Mem V, ∃ p m', pm s m = .ok (some p, m') ∧ OwnsP m.get [(t, p)] m'.get
  none : ∀ s, pv s = .ok none → ∀ m : Mem V, ∃ m', pm s m = .ok (none, m') ∧ m'.get = m.get

theorem parseEasyAt_parses (M : Malloc V) {c : Ctx} (hc : Usual c.env) (strtod : Str → Option V) :
    Parses (parseEasy c strtod) (parseEasyAt M c strtod) := by
  refine ⟨fun s t h m => ?_, fun s h m => ?_⟩
  · obtain ⟨p, m', T, e1, e2, -⟩ := ParserMemoryProps.C98_success M c.env hc strtod _ m (parseEasy_some h)
    exact ⟨p, m', by simp [parseEasyAt, e1], .of_exchanged e2⟩
  · obtain ⟨e, k, h⟩ := parseEasy_none h
    obtain ⟨m', e1, e2, -⟩ := ParserMemoryProps.C98_error M c.env strtod _ m h
    exact ⟨m', by simp [parseEasyAt, e1], e2⟩

theorem constraintsLoopAt_spec {pv : Str → Res (Option (Tree V))} {pm : Str → Mem V → Out (Option Nat × Mem V)}
    (hp : Parses pv pm) : ∀ (left : Nat) (str : Str),
    (∀ ts, parseConstraintsLoop pv left str = .ok (some ts) → ∀ m, ∃ L m',
      constraintsLoopAt pm left str m = .ok (true, L.map (·.2), m') ∧ L.map (·.1) = ts ∧ OwnsP m.get L m'.get) ∧
    (parseConstraintsLoop pv left str = .ok none → ∃ ts, ∀ m, ∃ L m',
      constraintsLoopAt pm left str m = .ok (false, L.map (·.2), m') ∧ L.map (·.1) = ts ∧ OwnsP m.get L m'.get) := by
  intro left
  induction left with
  | zero => exact fun str => ⟨fun ts h => (by cases h), fun h => (by cases h)⟩
  | succ left ih =>
    intro str
    have one : ∀ {first t}, pv first = .ok (some t) → ∀ m, ∃ L m', (do
        match ← pm first m with
        | (none, m') => pure (false, [], m')
        | (some p, m') => pure (true, [p], m')) = Out.ok (true, L.map (·.2), m') ∧ L.map (·.1) = [t] ∧
          OwnsP m.get L m'.get := by
      intro first t hf m
      obtain ⟨p, m', e1, e2⟩ := hp.some _ t hf m
      exact ⟨[(t, p)], m', by simp [e1], rfl, e2⟩
    unfold parseConstraintsLoop constraintsLoopAt
    cases strstr str " ; ".toList with
    | none =>
      dsimp only
      cases hf : pv str with
      | defect => exact ⟨fun ts h => (by cases h), fun h => (by cases h)⟩
      | ub => exact ⟨fun ts h => (by cases h), fun h => (by cases h)⟩
      | ok r =>
        cases r with
        | none =>
          refine ⟨fun ts h => (by cases h), fun _ => ⟨[], fun m => ?_⟩⟩
          obtain ⟨m', e1, e2⟩ := hp.none _ hf m
          exact ⟨[], m', by simp [e1], rfl, ownsP_nil.2 e2⟩
        | some t =>
          simp only [Res.bind_ok, ite_self]
          refine ⟨fun ts h => ?_, fun h => (by cases h)⟩
          cases h
          exact one hf
    | some k =>
      dsimp only
      cases hf : pv (str.take k) with
      | defect => exact ⟨fun ts h => (by cases h), fun h => (by cases h)⟩
      | ub => exact ⟨fun ts h => (by cases h), fun h => (by cases h)⟩
      | ok r =>
        cases r with
        | none =>
          refine ⟨fun ts h => (by cases h), fun _ => ⟨[], fun m => ?_⟩⟩
          obtain ⟨m', e1, e2⟩ := hp.none _ hf m
          exact ⟨[], m', by simp [e1], rfl, ownsP_nil.2 e2⟩
        | some t =>
          simp only [Res.bind_ok]
          by_cases hl : left = 0
          · simp only [hl, if_true]
            refine ⟨fun ts h => ?_, fun h => (by cases h)⟩
            cases h
            exact one hf
          · simp only [hl, if_false]
            obtain ⟨ih1, ih2⟩ := ih (str.drop (k + 3))
            cases hr : parseConstraintsLoop pv left (str.drop (k + 3)) with
            | defect => exact ⟨fun ts h => (by cases h), fun h => (by cases h)⟩
            | ub => exact ⟨fun ts h => (by cases h), fun h => (by cases h)⟩
            | ok r =>
              cases r with
              | none =>
                refine ⟨fun ts h => (by cases h), fun _ => ?_⟩
                obtain ⟨ts, h⟩ := ih2 hr
                refine ⟨t :: ts, fun m => ?_⟩
                obtain ⟨p, m1, e1, e2⟩ := hp.some _ t hf m
                obtain ⟨L, m2, e3, e4, e5⟩ := h m1
                exact ⟨(t, p) :: L, m2, by simp [e1, e3], by simp [e4], e2.trans e5⟩
              | some ts =>
                refine ⟨fun ts' h => ?_, fun h => (by cases h)⟩
                cases h
                intro m
                obtain ⟨p, m1, e1, e2⟩ := hp.some _ t hf m
                obtain ⟨L, m2, e3, e4, e5⟩ := ih1 ts hr m1
                exact ⟨(t, p) :: L, m2, by simp [e1, e3], by simp [e4], e2.trans e5⟩

theorem constraintsAt_spec {pv : Str → Res (Option (Tree V))} {pm : Str → Mem V → Out (Option Nat × Mem V)}
    (hp : Parses pv pm) (buf : Nat) (str : Option Str) :
    (∀ ts, parseConstraints pv buf str = .ok (some ts) → ∀ m, ∃ L m',
      constraintsAt pm buf str m = .ok (true, L.map (·.2), m') ∧ L.map (·.1) = ts ∧ OwnsP m.get L m'.get) ∧
    (parseConstraints pv buf str = .ok none → ∃ ts, ∀ m, ∃ L m',
      constraintsAt pm buf str m = .ok (false, L.map (·.2), m') ∧ L.map (·.1) = ts ∧ OwnsP m.get L m'.get) := by
  cases str with
  | some s => exact constraintsLoopAt_spec hp buf s
  | none =>
    refine ⟨fun ts h m => ?_, fun h => (by cases h)⟩
    cases h
    exact ⟨[], m, rfl, rfl, ownsP_nil.2 rfl⟩

/-! ## Patterns -/

mutual
theorem calls_copyIds (vars : List Str) : ∀ t : Tree V, calls (copyIds vars t) = calls t
  | .const v i => by simp [copyIds, calls]
  | .var x y i => by
    simp only [copyIds]
    split <;> simp [calls]
  | .op o cs i => by simp only [copyIds, calls, callsAll_copyIds vars cs]
theorem callsAll_copyIds (vars : List Str) : ∀ ts : List (Tree V), callsAll (copyIdsList vars ts) = callsAll ts
  | [] => by simp [copyIdsList, callsAll]
  | c :: ts => by simp only [copyIdsList, callsAll, calls_copyIds vars c, callsAll_copyIds vars ts]
end

theorem triggerAt_spec {t : Tree V} {m : Mem V} {p : Nat} {S : List Nat} {deep : Nat}
    (h : OwnershipSpec.Holds m.get t p S) (hd : calls t ≤ deep) : ∀ (vs : List Str) (j maxId : Nat),
    triggerAt deep m p vs j maxId =
      .ok (((vs.zipIdx j).filter fun x => occurs x.1 t).foldl (fun _ x => x.2) maxId)
  | [], j, maxId => rfl
  | v :: vs, j, maxId => by
    simp only [triggerAt, countNamed_spec v [] 0 h hd, Out.bind_ok, triggerAt_spec h hd vs, List.zipIdx_cons,
      List.filter_cons, occurs]
    by_cases hz : (varNodes v t [] 0 0).1 = 0
    · simp [hz]
    · simp [hz]

theorem foldl_below {n : Nat} : ∀ (l : List (Str × Nat)) (b : Nat), b < n → (∀ x ∈ l, x.2 < n) →
    l.foldl (fun _ x => x.2) b < n
  | [], b, hb, _ => hb
  | x :: l, b, hb, h => foldl_below l x.2 (h x (by simp)) fun y hy => h y (by simp [hy])

theorem triggerId_lt {vars : List Str} (hv : vars.length ≤ 10) (c : Tree V) : triggerId vars c < 10 := by
  refine foldl_below _ 0 (by omega) fun x hx => ?_
  have := List.snd_lt_of_mem_zipIdx (List.mem_filter.mp hx).1
  simp at this
  omega

theorem listVariables_len (t : Tree V) : (listVariables maxMappedVars t).vars.length ≤ 10 := by
  have h := TreeProps.C22_list_variables maxMappedVars t _ (by rw [varNames_eq]; exact TreeProps.addNew_first _)
  split at h
  · rename_i hl; rw [h.2.1]; exact hl
  · rw [h.2.1, List.length_take]; exact Nat.min_le_left _ _

/-- The constraints with their addresses. -/
def paired (acc : Nat → List (Tree V)) (accm : Nat → List Nat) : List (Tree V × Nat) :=
  (List.range 10).flatMap fun k => (acc k).zip (accm k)

theorem flatMap_snoc {α : Type} (f g : Nat → List α) (x : α) (k : Nat) : ∀ l : List Nat, l.Nodup → k ∈ l →
    (∀ j, j ≠ k → g j = f j) → g k = f k ++ [x] → (l.flatMap g).Perm (l.flatMap f ++ [x])
  | [], _, h, _, _ => by simp at h
  | j :: l, hn, h, h1, h2 => by
    rw [List.nodup_cons] at hn
    simp only [List.flatMap_cons]
    by_cases hj : j = k
    · subst hj
      have : l.flatMap g = l.flatMap f := by
        simp only [List.flatMap_def]
        rw [List.map_congr_left fun i hi => h1 i fun e => hn.1 (e ▸ hi)]
      rw [h2, this, List.append_assoc, List.append_assoc]
      exact List.perm_append_comm.append_left _
    · rw [h1 j hj, List.append_assoc]
      exact (flatMap_snoc f g x k l hn.2 ((List.mem_cons.mp h).resolve_left (Ne.symm hj)) h1 h2).append_left _

theorem addConstraintsAt_spec {base : Nat → Option (Cell V)} {deep : Nat} {vars : List Str} (hv : vars.length ≤ 10) :
    ∀ (C : List (Tree V × Nat)) (acc : Nat → List (Tree V)) (accm : Nat → List Nat) (U : List (Tree V × Nat)) (m : Mem V),
    OwnsP base (C ++ U) m.get → Shallow deep C → (∀ k, (accm k).length = (acc k).length) →
    (∀ k, 10 ≤ k → acc k = []) →
    (∀ r, addConstraints vars acc (C.map (·.1)) = some r → ∃ rm m' C',
      addConstraintsAt deep vars accm (C.map (·.2)) m = .ok (some rm, m') ∧ OwnsP base (C' ++ U) m'.get ∧
      C'.map (·.2) = C.map (·.2) ∧ Shallow deep C' ∧ (paired r rm).Perm (paired acc accm ++ C') ∧
      (∀ k, (rm k).length = (r k).length) ∧ ∀ k, 10 ≤ k → r k = []) ∧
    (addConstraints vars acc (C.map (·.1)) = none → ∃ m' C',
      addConstraintsAt deep vars accm (C.map (·.2)) m = .ok (none, m') ∧ OwnsP base (C' ++ U) m'.get ∧
      C'.map (·.2) = C.map (·.2) ∧ Shallow deep C')
  | [], acc, accm, U, m, h, hs, hl, h10 => by
    refine ⟨fun r hr => ?_, fun hr => (by cases hr)⟩
    cases hr
    exact ⟨accm, m, [], rfl, h, rfl, hs, by simp, hl, h10⟩
  | (c, p) :: C, acc, accm, U, m, h, hs, hl, h10 => by
    have hc : calls c ≤ deep := hs (c, p) (by simp)
    have hC : Shallow deep C := fun x hx => hs x (by simp [hx])
    obtain ⟨S, k1, k2, k3⟩ := OwnsP.change (L := C ++ U) h
    obtain ⟨m1, e1, e2, e3, -⟩ := copyIdsAt_spec vars k1 k2 hc
    have o1 := k3 _ m1 e2 e3
    have hc' : calls (copyIds vars c) ≤ deep := by rw [calls_copyIds]; exact hc
    have ht : triggerAt deep m1 p vars 0 0 = .ok (triggerId vars (copyIds vars c)) :=
      triggerAt_spec e2 hc' vars 0 0
    have hlt := triggerId_lt hv (copyIds vars c)
    have hswap : OwnsP base (C ++ ((copyIds vars c, p) :: U)) m1.get := o1.perm List.perm_middle.symm
    simp only [List.map_cons, addConstraints, addConstraintsAt, e1, ht, Out.bind_ok]
    generalize triggerId vars (copyIds vars c) = k at hlt
    rw [hl k]
    by_cases hk : (acc k).length = maxConstraints
    · simp only [hk, if_true]
      refine ⟨fun r hr => (by cases hr), fun _ => ⟨m1, (copyIds vars c, p) :: C, rfl, o1, rfl, fun x hx => ?_⟩⟩
      rcases List.mem_cons.mp hx with rfl | hx
      · exact hc'
      · exact hC x hx
    · simp only [hk, if_false]
      obtain ⟨i1, i2⟩ := addConstraintsAt_spec hv C (fun j => if j = k then acc k ++ [copyIds vars c] else acc j)
        (fun j => if j = k then accm k ++ [p] else accm j) ((copyIds vars c, p) :: U) m1 hswap hC
        (fun j => by by_cases hj : j = k <;> simp [hj, hl]) (fun j hj => by
          have : j ≠ k := by omega
          simp only [this, if_false]; exact h10 j hj)
      refine ⟨fun r hr => ?_, fun hr => ?_⟩
      · obtain ⟨rm, m', C', f1, f2, f3, f4, f5, f6⟩ := i1 r hr
        refine ⟨rm, m', (copyIds vars c, p) :: C', f1, f2.perm List.perm_middle, by simp [f3], ?_, ?_, f6⟩
        · intro x hx
          rcases List.mem_cons.mp hx with rfl | hx
          · exact hc'
          · exact f4 x hx
        · refine f5.trans ?_
          have : (paired (fun j => if j = k then acc k ++ [copyIds vars c] else acc j)
              (fun j => if j = k then accm k ++ [p] else accm j)).Perm (paired acc accm ++ [(copyIds vars c, p)]) := by
            refine flatMap_snoc _ _ _ k _ List.nodup_range (by simpa using hlt) (fun j hj => by simp [hj]) ?_
            simp only [if_true]
            rw [List.zip_append (hl k).symm]
            rfl
          refine (this.append_right C').trans ?_
          rw [List.append_assoc]
          exact .refl _
      · obtain ⟨m', C', f1, f2, f3, f4⟩ := i2 hr
        refine ⟨m', (copyIds vars c, p) :: C', f1, f2.perm List.perm_middle, by simp [f3], ?_⟩
        intro x hx
        rcases List.mem_cons.mp hx with rfl | hx
        · exact hc'
        · exact f4 x hx

end Verif
