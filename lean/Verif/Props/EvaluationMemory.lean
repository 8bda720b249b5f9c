import Verif.Lemmas.KernelRfl
import Verif.Lemmas.SimplifyHeapFull
import Verif.Props.Ownership
import Verif.Props.ParserMemory
import Verif.Props.Simplification

/-!
# C101: evaluating an input leaves the memory as it was
-/

namespace Verif.EvaluationMemoryProps
open Verif OwnershipSpec MemorySpec OwnershipProps ParserMemoryProps
variable {V ε : Type}

/-! ## There is such a search -/

mutual
theorem holds_unique {g : Nat → Option (Cell V)} : ∀ {t t' : Tree V} {p : Nat} {S S' : List Nat},
    OwnershipSpec.Holds g t p S → OwnershipSpec.Holds g t' p S' → t = t'
  | .const v i, t', p, S, S', ⟨h1, _⟩, h' => by
    cases t' with
    | const v' i' => have := h1.symm.trans h'.1; cases this; rfl
    | var n k i' => have := h1.symm.trans h'.1; cases this
    | op o cs i' => obtain ⟨_, _, h2, _⟩ := h'; have := h1.symm.trans h2; cases this
  | .var n k i, t', p, S, S', ⟨h1, _⟩, h' => by
    cases t' with
    | const v' i' => have := h1.symm.trans h'.1; cases this
    | var n k i' => have := h1.symm.trans h'.1; cases this; rfl
    | op o cs i' => obtain ⟨_, _, h2, _⟩ := h'; have := h1.symm.trans h2; cases this
  | .op o cs i, t', p, S, S', ⟨ps, T, h1, h2, _⟩, h' => by
    cases t' with
    | const v' i' => have := h1.symm.trans h'.1; cases this
    | var n k i' => have := h1.symm.trans h'.1; cases this
    | op o' cs' i' =>
      obtain ⟨ps', T', h3, h4, _⟩ := h'
      have := h1.symm.trans h3
      simp only [Option.some.injEq, Cell.op.injEq] at this
      obtain ⟨rfl, e, rfl⟩ := this
      have e' : ps = ps' := List.map_injective_iff.mpr (fun _ _ h => by cases h; rfl) e
      subst e'
      rw [holdsAll_unique h2 h4]
theorem holdsAll_unique {g : Nat → Option (Cell V)} : ∀ {ts ts' : List (Tree V)} {ps S S' : List Nat},
    HoldsAll g ts ps S → HoldsAll g ts' ps S' → ts = ts'
  | [], ts', ps, S, S', ⟨h1, _⟩, h' => by
    cases ts' with
    | nil => rfl
    | cons c cs => obtain ⟨_, _, _, _, h2, _⟩ := h'; rw [h1] at h2; cases h2
  | c :: cs, ts', ps, S, S', ⟨p, qs, S1, S2, h1, _, h3, h4⟩, h' => by
    cases ts' with
    | nil => rw [h1] at h'; cases h'.1
    | cons c' cs' =>
      obtain ⟨_, _, _, _, h2, _, h5, h6⟩ := h'
      rw [h1] at h2
      cases h2
      rw [holds_unique h3 h5, holdsAll_unique h4 h6]
end

/-- A search in memory that answers what the search in the tree answers exists. -/
theorem C101_finder (eqV : V → V → Bool) : ∃ F : Finder V, Finds eqV F := by
  have key : ∀ (checker : Tree V → Bool) (pat : Pattern V) (m : Mem V) (root : Slot),
      ∃ ans : Out (Option (Slot × SlotMatching)), ∀ (t : Tree V) (S : List Nat), At m root t S →
      (findMatching eqV checker pat t [] = .ok none → ans = .ok none) ∧
      ∀ path mt s, findMatching eqV checker pat t [] = .ok (some (path, mt)) → t.deref path = some s →
        ∃ matched sm, ans = .ok (some (matched, sm)) ∧ PlaceOf m root path matched ∧
          ∀ id, Inside m matched s (sm id) ((mt id).getD []) := by
    intro checker pat m root
    by_cases hex : ∃ t S, At m root t S
    · obtain ⟨t, S, h⟩ := hex
      have uniq : ∀ t' S', At m root t' S' → t' = t := by
        rintro t' S' ⟨p', h1, h2, _⟩
        obtain ⟨p, h3, h4, _⟩ := h
        rw [h1] at h3
        cases h3
        exact holds_unique h2 h4
      cases hf : findMatching eqV checker pat t [] with
      | defect => exact ⟨.ub, fun t' S' h' => by rw [uniq t' S' h', hf]; exact ⟨fun e => (by cases e), fun _ _ _ e => by cases e⟩⟩
      | ub => exact ⟨.ub, fun t' S' h' => by rw [uniq t' S' h', hf]; exact ⟨fun e => (by cases e), fun _ _ _ e => by cases e⟩⟩
      | ok r =>
        cases r with
        | none =>
          exact ⟨.ok none, fun t' S' h' => by rw [uniq t' S' h', hf]; exact ⟨fun _ => rfl, fun _ _ _ e => by cases e⟩⟩
        | some pm =>
          obtain ⟨path, mt⟩ := pm
          cases hs : t.deref path with
          | none =>
            exact ⟨.ub, fun t' S' h' => by
              rw [uniq t' S' h', hf]
              exact ⟨fun e => (by cases e), fun _ _ _ e e' => by cases e; rw [hs] at e'; cases e'⟩⟩
          | some s =>
            obtain ⟨matched, p0, X0, hp, _⟩ := C97_places h hs
            obtain ⟨S1, hat, _⟩ := h.path hs hp
            have hsnoc : ∀ (q : Path) (r : Tree V) (o : Op) (cs : List (Tree V)) (i : Nat),
                r.deref q = some (.op o cs i) → ∀ (k : Nat) (c : Tree V), cs[k]? = some c →
                r.deref (q ++ [k]) = some c := by
              intro q
              induction q with
              | nil =>
                intro r o cs i hr k c hc
                have : r = .op o cs i := by cases r <;> simpa [Tree.deref] using hr
                subst this
                simp only [List.nil_append, Tree.deref, hc]
              | cons j q ih =>
                intro r o cs i hr k c hc
                cases r with
                | const v i => simp [Tree.deref] at hr
                | var y z i => simp [Tree.deref] at hr
                | op o' ds i' =>
                  simp only [Tree.deref, List.cons_append] at hr ⊢
                  cases hj : ds[j]? with
                  | none => rw [hj] at hr; simp at hr
                  | some d =>
                    rw [hj] at hr
                    exact ih d o cs i hr k c hc
            have hb : BoundIn (fun u => ∃ q, s.deref q = some u) mt := by
              obtain ⟨pre, s', post, e1, _, e2⟩ := findMatching_spec eqV checker pat t [] _ hf
              have hs' : t.deref path = some s' := deref_iff.mp (by rw [e1]; simp)
              rw [hs] at hs'
              cases hs'
              refine getMatching_bound ?_ e2 ⟨[], by cases s <;> rfl⟩
              rintro o cs i ⟨q, hq⟩ c hc
              obtain ⟨k, hk⟩ := List.mem_iff_getElem?.mp hc
              exact ⟨q ++ [k], hsnoc q s o cs i hq k c hk⟩
            have hin : ∀ us : List (Tree V), (∀ u ∈ us, ∃ q, s.deref q = some u) → ∃ ss, Inside m matched s ss us := by
              intro us
              induction us with
              | nil => intro _; exact ⟨[], rfl⟩
              | cons u us ih =>
                intro hus
                obtain ⟨ss, hss⟩ := ih fun v hv => hus v (by simp [hv])
                obtain ⟨q, hq⟩ := hus u (by simp)
                obtain ⟨sl, _, _, g1, _⟩ := C97_places hat hq
                exact ⟨sl :: ss, u, us, q, rfl, hq, g1, hss⟩
            have hall : ∀ id, ∃ ss, Inside m matched s ss ((mt id).getD []) := by
              intro id
              refine hin _ fun u hu => ?_
              cases hl : mt id with
              | none => rw [hl] at hu; cases hu
              | some l => rw [hl] at hu; exact hb id l hl u hu
            refine ⟨.ok (some (matched, fun id => Classical.choose (hall id))), fun t' S' h' => ?_⟩
            rw [uniq t' S' h', hf]
            refine ⟨fun e => (by cases e), fun path' mt' s' e e' => ?_⟩
            cases e
            rw [hs] at e'
            cases e'
            exact ⟨matched, _, rfl, hp, fun id => Classical.choose_spec (hall id)⟩
    · exact ⟨.ub, fun t S h => absurd ⟨t, S, h⟩ hex⟩
  exact ⟨fun checker pat m root => Classical.choose (key checker pat m root),
    fun checker pat m root t S h => Classical.choose_spec (key checker pat m root) t S h⟩

/-! ## C101 -/

theorem live_of {m : Mem V} {y x : Nat} {t : Tree V} {S : List Nat} (h : At m (.var y) t S) :
    Live (rest m.get S) m.vars y x t m S :=
  ⟨h, fun a ha => by simp [rest, ha], fun a ha => by simp [rest, ha], fun _ _ _ => rfl⟩

theorem rest_of {g : Nat → Option (Cell V)} {vs : Nat → Option Nat} {m : Mem V} {y x : Nat} {t : Tree V}
    {S : List Nat} (h : Live g vs y x t m S) : rest m.get S = g := by
  funext a
  by_cases ha : a ∈ S
  · simp [rest, ha, h.new a ha]
  · simp [rest, ha, h.old a ha]

/-- `apply_ruleset`: the tree becomes the one the rules lead to, and nothing else in memory changes. -/
theorem C101_rules (M : Malloc V) {F : Finder V} {eqV : V → V → Bool} (hF : Finds eqV F)
    {checker : Tree V → Bool} {y x : Nat} (hyx : y ≠ x) {rules : List (RewriteRule V)}
    {mrules : List (MemRule V)} {m : Mem V} {t u : Tree V} {S : List Nat} {cap rounds k : Nat}
    (h : At m (.var y) t S) (hs : Stored (rest m.get S) rules mrules)
    (hr : applyRuleset eqV checker rules cap rounds t = .ok (some (u, k))) :
    ∃ n, ∀ deep ≥ n, ∃ m' T, applyLoopAt M F deep checker x mrules cap rounds 0 m (.var y) = .ok (k, m') ∧
      At m' (.var y) u T ∧ rest m'.get T = rest m.get S ∧ ∀ z, z ≠ y → z ≠ x → m'.vars z = m.vars z := by
  obtain ⟨n, hn⟩ := applyLoopAt_live M hF hyx hr
  refine ⟨n, fun deep hd => ?_⟩
  obtain ⟨m', T, e1, e2⟩ := hn deep hd _ m.vars _ hs m S (live_of h)
  exact ⟨m', T, e1, e2.at_, rest_of e2, e2.vars⟩

/-- `simplify`: there is a tree afterwards, also after an error; without an error it is the simplified
one.  Nothing else in memory changes. -/
theorem C101_simplify (K : Machine V ε) (M : Malloc V) {F : Finder V} (hF : Finds K.dbl.eq F) {y x : Nat}
    (hyx : y ≠ x) {s : Simp V} {ms : MemSimp V} {m : Mem V} {t : Tree V} {S : List Nat}
    {r : Except (SimpErr ε × Nat) (Tree V)} (h : At m (.var y) t S) (hs : StoredSimp (rest m.get S) s ms)
    (hr : K.simplify s t = .ok r) :
    ∃ n, ∀ deep ≥ n, ∃ m' u T, K.simplifyAt M F deep x ms m (.var y) = .ok (errorOf r, m') ∧
      At m' (.var y) u T ∧ (∀ v, r = .ok v → u = v) ∧ rest m'.get T = rest m.get S ∧
      ∀ z, z ≠ y → z ≠ x → m'.vars z = m.vars z := by
  obtain ⟨n, u, e3, hn⟩ := simplifyAt_live K M hF hyx hr
  refine ⟨n, fun deep hd => ?_⟩
  obtain ⟨m', T, e1, e2⟩ := hn deep hd _ m.vars _ hs m S (live_of h)
  exact ⟨m', u, T, e1, e2.at_, e3, rest_of e2, e2.vars⟩

theorem _root_.Verif.Live.freed {g : Nat → Option (Cell V)} {vs : Nat → Option Nat} {m : Mem V} {y x : Nat}
    {t : Tree V} {S : List Nat} (h : Live g vs y x t m S) {fuel : Nat} (hf : calls t ≤ fuel) :
    ∃ m', freeTree fuel m (m.vars y) = .ok m' ∧ m'.get = g ∧ ∀ z, z ≠ y → z ≠ x → m'.vars z = vs z := by
  obtain ⟨p, h1, h2, h3⟩ := h.at_
  have hp : m.vars y = some p := by simpa [Mem.deref] using h1
  obtain ⟨m', e1, e2, e3⟩ := freeTree_spec h2 h3.1 hf
  refine ⟨m', by rw [hp]; exact e1, ?_, fun z hz hz' => by rw [e3]; exact h.vars z hz hz'⟩
  rw [← rest_of h]
  funext a
  rw [e2 a]
  rfl

theorem arithSimplify_live (K : Machine V ε) (M : Malloc V) {F : Finder V} (hF : Finds K.dbl.eq F) {y x : Nat}
    (hyx : y ≠ x) {funs : List (RewriteRule V)} {s : Simp V} {t t' : Tree V} {k : Nat}
    {r : Except (SimpErr ε × Nat) (Tree V)} (ha : applyRuleset K.dbl.eq (fun _ => true) funs sizeMax K.fuel t = .ok (some (t', k)))
    (hr : K.simplify s t' = .ok r) :
    ∃ n, ∀ deep ≥ n, ∀ g vs mfuns ms, Stored g funs mfuns → StoredSimp g s ms → ∀ m S, Live g vs y x t m S → ∃ m',
      K.arithSimplifyAt M F deep x mfuns ms m y = .ok (errorOf r, m') ∧
      (∀ v, r = .ok v → ∃ T, Live g vs y x v m' T) ∧
      (∀ e, r = .error e → m'.get = g ∧ ∀ z, z ≠ y → z ≠ x → m'.vars z = vs z) := by
  obtain ⟨n1, h1⟩ := applyLoopAt_live M hF hyx ha
  obtain ⟨n2, u, h0, h2⟩ := simplifyAt_live K M hF hyx hr
  refine ⟨n1 + n2 + calls u, fun deep hd g vs mfuns ms hf hs m S hm => ?_⟩
  obtain ⟨m1, T1, e1, e2⟩ := h1 deep (by omega) g vs mfuns hf m S hm
  obtain ⟨m2, T2, f1, f2⟩ := h2 deep (by omega) g vs ms hs m1 T1 e2
  cases r with
  | ok v =>
    refine ⟨m2, ?_, fun v e => ⟨T2, h0 v e ▸ f2⟩, fun e h => by cases h⟩
    simp [Machine.arithSimplifyAt, e1, f1, errorOf]
  | error e =>
    obtain ⟨m3, k1, k2, k3⟩ := f2.freed (fuel := deep) (by omega)
    refine ⟨m3, ?_, fun v h => (by cases h), fun _ _ => ⟨k2, k3⟩⟩
    simp [Machine.arithSimplifyAt, e1, f1, errorOf, k1]

/-- `arith_simplify`: without an error the simplified tree is there and nothing else changed; after an
error the memory is as it would be without the tree. -/
theorem C101_arith (K : Machine V ε) (M : Malloc V) {F : Finder V} (hF : Finds K.dbl.eq F) {y x : Nat}
    (hyx : y ≠ x) {funs : List (RewriteRule V)} {mfuns : List (MemRule V)} {s : Simp V} {ms : MemSimp V}
    {m : Mem V} {S : List Nat} {t t' : Tree V} {k : Nat} {r : Except (SimpErr ε × Nat) (Tree V)}
    (h : At m (.var y) t S) (hf : Stored (rest m.get S) funs mfuns) (hs : StoredSimp (rest m.get S) s ms)
    (ha : applyRuleset K.dbl.eq (fun _ => true) funs sizeMax K.fuel t = .ok (some (t', k)))
    (hr : K.simplify s t' = .ok r) :
    ∃ n, ∀ deep ≥ n, ∃ m', K.arithSimplifyAt M F deep x mfuns ms m y = .ok (errorOf r, m') ∧
      (∀ u, r = .ok u → ∃ T, At m' (.var y) u T ∧ rest m'.get T = rest m.get S) ∧
      (∀ e, r = .error e → m'.get = rest m.get S) ∧ ∀ z, z ≠ y → z ≠ x → m'.vars z = m.vars z := by
  obtain ⟨n, hn⟩ := arithSimplify_live K M hF hyx ha hr
  refine ⟨n, fun deep hd => ?_⟩
  obtain ⟨m', e1, e2, e3⟩ := hn deep hd _ m.vars _ _ hf hs m S (live_of h)
  refine ⟨m', e1, fun u hu => ?_, fun e he => (e3 e he).1, ?_⟩
  · obtain ⟨T, hT⟩ := e2 u hu
    exact ⟨T, hT.at_, rest_of hT⟩
  · cases r with
    | ok u => exact (e2 u rfl).choose_spec.vars
    | error e => exact (e3 e rfl).2

theorem evaluation_live (K : Machine V ε) (M : Malloc V) {F : Finder V} (hF : Finds K.dbl.eq F) {y x : Nat}
    (hyx : y ≠ x) (c : Ctx) (hc : ArithLike c) (strtod : Str → Option V) {funs : List (RewriteRule V)}
    {s : Simp V} (inp : Str) {t t' : Tree V} {k : Nat} {r : Except (SimpErr ε × Nat) (Tree V)}
    (hp : (parseInput c strtod inp).2 = .ok t)
    (ha : applyRuleset K.dbl.eq (fun _ => true) funs sizeMax K.fuel t = .ok (some (t', k)))
    (hr : K.simplify s t' = .ok r) :
    ∃ n, ∀ deep ≥ n, ∀ m mfuns ms, Stored m.get funs mfuns → StoredSimp m.get s ms →
      ∃ m', K.evaluationAt M F deep x c.env strtod mfuns ms y (tokenize c.keywords inp) m =
        .ok (outcome r, m') ∧ m'.get = m.get ∧ ∀ z, z ≠ y → z ≠ x → m'.vars z = m.vars z := by
  obtain ⟨n, hn⟩ := arithSimplify_live K M hF hyx ha hr
  have read : ∀ m : Mem V, ∃ p m1 T,
      parseHeap M true c.env strtod (tokenize c.keywords inp) m = .ok (.ok (some p), m1) ∧
      Live m.get m.vars y x t (m1.setVar y (some p)) T := by
    intro m
    obtain ⟨p, m1, T, e1, e2, e3⟩ := (C98_calculator M c hc strtod inp m).1 t hp
    refine ⟨p, m1, T, e1, ⟨p, by simp [Mem.deref, Mem.setVar], e2.holds, e2.nodup, fun a k h => (by cases h)⟩, ?_, ?_, ?_⟩
    · intro a ha
      rcases e2.fresh a ha with h | h
      · cases h
      · exact h
    · intro a ha
      exact e2.frame a (by simp) ha
    · intro z hz _
      simp [Mem.setVar, hz, e3]
  cases r with
  | error e =>
    refine ⟨n, fun deep hd m mfuns ms hf hs => ?_⟩
    obtain ⟨p, m1, T, e1, hL⟩ := read m
    obtain ⟨m3, f1, _, f3⟩ := hn deep hd _ m.vars _ _ hf hs _ T hL
    refine ⟨m3, ?_, (f3 e rfl).1, (f3 e rfl).2⟩
    simp [Machine.evaluationAt, e1, Mem.assign, f1, errorOf, outcome]
  | ok u =>
    refine ⟨n + calls u, fun deep hd m mfuns ms hf hs => ?_⟩
    obtain ⟨p, m1, T, e1, hL⟩ := read m
    obtain ⟨m3, f1, f2, _⟩ := hn deep (by omega) _ m.vars _ _ hf hs _ T hL
    obtain ⟨T3, h3⟩ := f2 u rfl
    obtain ⟨m4, g1, g2, g3⟩ := h3.freed (fuel := deep) (by omega)
    refine ⟨m4, ?_, g2, g3⟩
    obtain ⟨q, h4, h5, _⟩ := h3.at_
    have hq : m3.vars y = some q := by simpa [Mem.deref] using h4
    rw [hq] at g1
    cases u with
    | const v i =>
      simp [Machine.evaluationAt, e1, Mem.assign, f1, errorOf, outcome, Mem.load, hq, h5.1, g1]
    | var nm i j =>
      simp [Machine.evaluationAt, e1, Mem.assign, f1, errorOf, outcome, Mem.load, hq, h5.1, g1]
    | op o cs i =>
      obtain ⟨ps, X, h6, _⟩ := h5
      simp [Machine.evaluationAt, e1, Mem.assign, f1, errorOf, outcome, Mem.load, hq, h6, g1]

/-- Evaluating an input leaves the nodes in memory as they were, whether an error is found
while simplifying or not; every step of it is defined. -/
theorem C101_evaluation (K : Machine V ε) (M : Malloc V) {F : Finder V} (hF : Finds K.dbl.eq F) {y x : Nat}
    (hyx : y ≠ x) (c : Ctx) (hc : ArithLike c) (strtod : Str → Option V) {funs : List (RewriteRule V)}
    {mfuns : List (MemRule V)} {s : Simp V} {ms : MemSimp V} {m : Mem V} (hf : Stored m.get funs mfuns)
    (hs : StoredSimp m.get s ms) (inp : Str) {t t' : Tree V} {k : Nat} {r : Except (SimpErr ε × Nat) (Tree V)}
    (hp : (parseInput c strtod inp).2 = .ok t)
    (ha : applyRuleset K.dbl.eq (fun _ => true) funs sizeMax K.fuel t = .ok (some (t', k)))
    (hr : K.simplify s t' = .ok r) :
    ∃ n, ∀ deep ≥ n, ∃ m', K.evaluationAt M F deep x c.env strtod mfuns ms y (tokenize c.keywords inp) m =
        .ok (outcome r, m') ∧ m'.get = m.get ∧ ∀ z, z ≠ y → z ≠ x → m'.vars z = m.vars z := by
  obtain ⟨n, hn⟩ := evaluation_live K M hF hyx c hc strtod inp hp ha hr
  exact ⟨n, fun deep hd => hn deep hd m mfuns ms hf hs⟩

/-- So does an input that cannot be read. -/
theorem C101_unreadable (K : Machine V ε) (M : Malloc V) (F : Finder V) (y x : Nat) (c : Ctx) (hc : ArithLike c)
    (strtod : Str → Option V) (mfuns : List (MemRule V)) (ms : MemSimp V) (m : Mem V) (inp : Str) {e : PErr}
    {k : Nat} (hp : (parseInput c strtod inp).2 = .err e k) (deep : Nat) :
    ∃ m', K.evaluationAt M F deep x c.env strtod mfuns ms y (tokenize c.keywords inp) m = .ok (none, m') ∧
      m'.get = m.get ∧ m'.vars = m.vars := by
  obtain ⟨m1, e1, e2, e3⟩ := (C98_calculator M c hc strtod inp m).2 e k hp
  exact ⟨m1, by simp [Machine.evaluationAt, e1], e2, e3⟩

/-! ## Examples -/

/-- The tree in a place. -/
def readAt : Nat → Mem Nat → Slot → Option (Tree Nat)
  | 0, _, _ => none
  | n + 1, m, sl =>
    match m.deref sl with
    | .ok (some p) =>
      match m.get p with
      | some (.const v i) => some (.const v i)
      | some (.var nm k i) => some (.var nm k i)
      | some (.op o ps i) => ((List.range ps.length).mapM fun k => readAt n m (.child p k)).map (Tree.op o · i)
      | none => none
    | _ => none

/-- The places of the nodes of the tree in a place. -/
def placesAt : Nat → Mem Nat → Slot → List Slot
  | 0, _, _ => []
  | n + 1, m, sl =>
    sl :: match m.deref sl with
      | .ok (some p) =>
        match m.get p with
        | some (.op _ ps _) => (List.range ps.length).flatMap fun k => placesAt n m (.child p k)
        | _ => []
      | _ => []

/-- A search that reads the tree first. -/
def reading : Finder Nat := fun checker pat m root =>
  match readAt 9 m root with
  | none => .ub
  | some t =>
    match findMatching (· == ·) checker pat t [] with
    | .ok none => .ok none
    | .ok (some (path, mt)) =>
      let place := path.foldl (fun sl k => match m.deref sl with
        | .ok (some p) => Slot.child p k
        | _ => sl) root
      let all := placesAt 9 m place
      .ok (some (place, fun id => ((mt id).getD []).filterMap fun u => all.find? fun sl =>
        match readAt 9 m sl with
        | some u' => treeEquals (· == ·) u u'
        | none => false))
    | _ => .ub

def sumOf : Op := Op.getFunction "sum".toList .dyn

/-- `sum` of any number of arguments, and numbers that are at most nine. -/
def nine : Machine Nat Unit where
  dbl := Verif.SimplProps.natD
  arith o l := if o.name == "sum".toList then (if l.foldl (· + ·) 0 ≤ 9 then .ok (l.foldl (· + ·) 0) else .error ())
    else .error ()
  varErr := ()
  fuel := 9

/-- The rule `a! -> sum(a, a, 1)`. -/
def bangRule : RewriteRule Nat :=
  ⟨⟨.op (Op.getPostfix "!".toList 6) [.var ['a'] 0 0] 0, fun _ => []⟩,
    .op sumOf [.var ['a'] 0 0, .var ['a'] 0 0, .const 1 0] 0⟩

/-- What is at 40 is what `bangRule` leads to. -/
def loaded : Mem Nat :=
  ⟨[(40, .op sumOf [some 41, some 42, some 43] 0), (41, .var ['a'] 0 0), (42, .var ['a'] 0 0), (43, .const 1 0)],
    fun _ => none⟩

def memBang : MemRule Nat := ⟨bangRule.pattern, 40⟩

def noSimp : Simp Nat := ⟨false, fun _ => [], none, none, none⟩
def noMemSimp : MemSimp Nat := ⟨false, fun _ => [], none, none, none⟩

example : Stored loaded.get [bangRule] [memBang] := by
  refine ⟨40, [], [40, 41, 42, 43], rfl, ?_, rfl⟩
  exact ⟨[41, 42, 43], [41, 42, 43], rfl, ⟨41, [42, 43], [41], [42, 43], rfl, rfl, ⟨rfl, rfl⟩,
    ⟨42, [43], [42], [43], rfl, rfl, ⟨rfl, rfl⟩, ⟨43, [], [43], [], rfl, rfl, ⟨rfl, rfl⟩, rfl, rfl⟩⟩⟩, rfl⟩

example : StoredSimp loaded.get noSimp noMemSimp :=
  ⟨rfl, fun _ => rfl, rfl, rfl, .inl ⟨rfl, rfl⟩⟩

/-- `3!` by the rule: the hypotheses of `C101_evaluation` on the tree. -/
example : applyRuleset nine.dbl.eq (fun _ => true) [bangRule] sizeMax nine.fuel
      (.op (Op.getPostfix "!".toList 6) [.const 3 0] 1) =
      .ok (some (.op sumOf [.const 3 0, .const 3 0, .const 1 1] 1, 1)) ∧
    nine.simplify noSimp (.op sumOf [.const 3 0, .const 3 0, .const 1 1] 1) = .ok (.ok (.const 7 1)) :=
  ⟨by kernel_rfl, by kernel_rfl⟩

/-- What an evaluation answers, and the nodes after it. -/
def ran (r : Out (Option (Option Nat) × Mem Nat)) : Option (Option (Option Nat) × List (Nat × Cell Nat)) :=
  match r with
  | .ok (r, m) => some (r, m.cells)
  | _ => none

/-- `3!` is seven; the rule stays as it is. -/
example : ran (nine.evaluationAt bump reading 9 1 Verif.ParserProps.demo Verif.ParserProps.digit [memBang] noMemSimp 0 (Verif.ParserProps.toks ["3", "!"]) loaded) =
    some (some (some 7), loaded.cells) := by
  decide +kernel

/-- An error, in `3!!`, which is sixteen, too much. -/
example : ran (nine.evaluationAt bump reading 9 1 Verif.ParserProps.demo Verif.ParserProps.digit [memBang] noMemSimp 0 (Verif.ParserProps.toks ["3", "!", "!"]) loaded) =
    some (none, loaded.cells) := by
  decide +kernel

/-- An input that is not a constant. -/
example : ran (nine.evaluationAt bump reading 9 1 Verif.ParserProps.demo Verif.ParserProps.digit [memBang] noMemSimp 0 (Verif.ParserProps.toks ["x", "!"]) loaded) =
    some (some none, loaded.cells) := by
  decide +kernel

/-- An input that cannot be read. -/
example : ran (nine.evaluationAt bump reading 9 1 Verif.ParserProps.demo Verif.ParserProps.digit [memBang] noMemSimp 0 (Verif.ParserProps.toks ["3", "*"]) loaded) =
    some (none, loaded.cells) := by
  decide +kernel

end Verif.EvaluationMemoryProps
