import Verif.Model.SuffixTree
import Verif.Spec.Narrow
import Verif.Lemmas.Bound

/-!
# Lemmas about the suffix tree of the matcher
-/

namespace Verif
namespace Suffix
variable {V : Type}

/-! ## Arithmetic of `size_t` -/

theorem add_small {a b : Nat} (h : a + b < 2 ^ 64) : add a b = a + b := Nat.mod_eq_of_lt h

theorem sub_le {a b : Nat} (hb : b ≤ a) (ha : a < 2 ^ 64) : sub a b = a - b := by
  simp only [sub]; omega

theorem sub_gt {a b : Nat} (hb : a < b) (h : b < 2 ^ 64) : sub a b = 2 ^ 64 - (b - a) := by
  simp only [sub]; omega

/-! ## Sizes -/

/-- All lists that are bound have a size that fits into memory. -/
def SmallM (m : Matching V) : Prop := ∀ id l, m id = some l → l.length < 2 ^ 62

theorem narrowAll_mem {l : List (Tree V)} (h : NarrowAll l) : ∀ t ∈ l, Narrow t := by
  induction l with
  | nil => simp
  | cons c cs ih =>
    intro t ht
    rcases List.mem_cons.1 ht with rfl | ht
    · exact h.1
    · exact ih h.2 t ht

mutual
theorem extendMatching_small (ctx : MatchCtx V) :
    ∀ {pat : Tree V} {m : Matching V} {avail : List (Tree V)} {size : Nat} {ms : List (Matching V)},
    extendMatching ctx pat m avail size = .ok ms → SmallM m → avail.length < 2 ^ 62 →
    (∀ u ∈ avail, Narrow u) → ∀ m' ∈ ms, SmallM m'
  | .var x id i, m, avail, size, ms, h, hm, ha, hn, m', hm' => by
    simp only [extendMatching] at h
    split at h
    · split at h
      · split at h
        · cases hb : nodelistsEqual ctx.eqV _ avail with
          | ok b =>
            rw [hb] at h
            cases h
            split at hm'
            · simp only [List.mem_singleton] at hm'; exact hm' ▸ hm
            · simp at hm'
          | defect => rw [hb] at h; cases h
          | ub => rw [hb] at h; cases h
        · cases h; simp at hm'
      · split at h
        · cases hb : checkConstraints ctx (m.bind id (avail.take size)) (ctx.constraints id) with
          | ok b =>
            simp only [hb] at h
            cases h
            split at hm'
            · simp only [List.mem_singleton] at hm'
              subst hm'
              intro j l hl
              simp only [Matching.bind] at hl
              split at hl
              · cases hl; simp only [List.length_take]; omega
              · exact hm j l hl
            · simp at hm'
          | defect => simp only [hb] at h; cases h
          | ub => simp only [hb] at h; cases h
        · cases h
    · cases h
  | .const v i, m, avail, size, ms, h, hm, ha, hn, m', hm' => by
    simp only [extendMatching] at h
    split at h
    · split at h
      · cases h
      · cases h
        split at hm'
        · simp only [List.mem_singleton] at hm'; exact hm' ▸ hm
        · simp at hm'
    · cases h; simp at hm'
  | .op o ps i, m, avail, size, ms, h, hm, ha, hn, m', hm' => by
    simp only [extendMatching] at h
    split at h
    · split at h
      · cases h
      · next q ts j rest =>
        split at h
        · cases hs : suffixLevels m ts.length ps [([], 0)] with
          | ok nodes =>
            rw [hs] at h
            replace h : Res.flatMap (fun x => fillSuffix ctx ps x.1 ts [m])
              (nodes.filter fun x => x.2 == ts.length) = .ok ms := h
            obtain ⟨x, _, l, hl, hml⟩ := Res.flatMap_mem h m' hm'
            have ht : Narrow (.op q ts j) := hn _ (by simp)
            exact fillSuffix_small ctx hl (by simpa using hm) ht.1 (narrowAll_mem ht.2) m' hml
          | defect => rw [hs] at h; cases h
          | ub => rw [hs] at h; cases h
        · cases h; simp at hm'
      · cases h; simp at hm'
    · cases h; simp at hm'
theorem fillSuffix_small (ctx : MatchCtx V) :
    ∀ {ps : List (Tree V)} {path : List (Nat × Nat)} {ts : List (Tree V)} {ms ms' : List (Matching V)},
    fillSuffix ctx ps path ts ms = .ok ms' → (∀ m ∈ ms, SmallM m) → ts.length < 2 ^ 62 →
    (∀ u ∈ ts, Narrow u) → ∀ m' ∈ ms', SmallM m'
  | p :: ps, (sum, label) :: path, ts, ms, ms', h, hm, hl, ht, m', hm' => by
    simp only [fillSuffix] at h
    cases h1 : Res.flatMap (fun m => extendMatching ctx p m (ts.drop sum) label) ms with
    | ok ms1 =>
      rw [h1] at h
      refine fillSuffix_small ctx (ps := ps) h (fun m1 hm1 => ?_) hl ht m' hm'
      obtain ⟨m0, hm0, l, hl', hml⟩ := Res.flatMap_mem h1 m1 hm1
      exact extendMatching_small ctx hl' (hm m0 hm0) (by simp only [List.length_drop]; omega)
        (fun u hu => ht u (List.mem_of_mem_drop hu)) m1 hml
    | defect => rw [h1] at h; cases h
    | ub => rw [h1] at h; cases h
  | [], path, ts, ms, ms', h, hm, hl, ht, m', hm' => by
    simp only [fillSuffix] at h
    cases h
    exact hm m' hm'
  | p :: ps, [], ts, ms, ms', h, hm, hl, ht, m', hm' => by
    simp only [fillSuffix] at h
    cases h
    exact hm m' hm'
end

/-! ## Loops -/

theorem get_of {α : Type} {l : List α} {i : Nat} {a : α} (h : l[i]? = some a) : get l i = .ok a := by
  simp only [get, h]

/-- `fill_suffix` along one more node. -/
theorem fillSuffix_snoc (ctx : MatchCtx V) (ts : List (Tree V)) :
    ∀ (ps : List (Tree V)) (path : List (Nat × Nat)) (x : Nat × Nat) (p : Tree V)
      (ms : List (Matching V)), ps[path.length]? = some p →
    fillSuffix ctx ps (path ++ [x]) ts ms =
      (fillSuffix ctx ps path ts ms >>= fun M =>
        Res.flatMap (fun m => extendMatching ctx p m (ts.drop x.1) x.2) M)
  | [], path, x, p, ms, h => by simp at h
  | q :: ps, [], x, p, ms, h => by
    simp only [List.length_nil, List.getElem?_cons_zero, Option.some.injEq] at h
    subst h
    obtain ⟨a, b⟩ := x
    simp only [List.nil_append, fillSuffix, Res.bind_ok]
    cases Res.flatMap (fun m => extendMatching ctx q m (ts.drop a) b) ms <;> simp [fillSuffix]
  | q :: ps, (a, b) :: path, x, p, ms, h => by
    simp only [List.length_cons, List.getElem?_cons_succ] at h
    simp only [List.cons_append, fillSuffix]
    cases Res.flatMap (fun m => extendMatching ctx q m (ts.drop a) b) ms with
    | ok M => simp only [Res.bind_ok]; exact fillSuffix_snoc ctx ts ps path x p M h
    | defect => rfl
    | ub => rfl

theorem extendFrom_eq {e : Extend V} {g : Matching V → Res (List (Matching V))}
    {avail : List (Tree V)} {label first : Nat} :
    ∀ (M ms : List (Matching V)) (i : Nat), (∀ m ∈ M, e m avail label = Out.of (g m)) →
    (∀ j m, M[j]? = some m → ms[first + i + j]? = some m) →
    extendFrom e avail label first M.length i ms = (Out.of (Res.flatMap g M) >>= fun new => .ok (ms ++ new))
  | [], ms, i, _, _ => by simp [extendFrom, Res.flatMap]
  | m :: M, ms, i, he, hg => by
    have h0 := hg 0 m (by simp)
    simp only [Nat.add_zero] at h0
    simp only [List.length_cons, extendFrom, get_of h0, Out.bind_ok, he m (by simp), Res.flatMap]
    cases hgm : g m with
    | ok x =>
      simp only [Out.of_ok, Out.bind_ok]
      rw [extendFrom_eq M (ms ++ x) (i + 1) (fun m' h' => he m' (by simp [h'])) ?_]
      · simp only [Res.bind_ok]
        cases Res.flatMap g M with
        | ok y => simp [List.append_assoc]
        | defect => rfl
        | ub => rfl
      · intro j m' h'
        have := hg (j + 1) m' (by simpa using h')
        rw [List.getElem?_append_left]
        · rw [show first + (i + 1) + j = first + i + (j + 1) by omega]; exact this
        · have := (List.getElem?_eq_some_iff.1 this).1
          omega
    | defect => rfl
    | ub => rfl

theorem extendAll_eq (ctx : MatchCtx V) (fuel : Nat) (ps : List (Tree V)) :
    extendAll ctx fuel ps = ps.map (extend ctx fuel) := by
  induction ps with
  | nil => rfl
  | cons p ps ih => simp only [extendAll, ih, List.map_cons]

/-! ## Paths of suffix nodes -/

/-- The path of the node with an index: offset and label of the nodes from the root on. -/
inductive Chain (nodes : List Node) : Nat → List (Nat × Nat) → Prop where
  | root {c : Node} : nodes[0]? = some c → c.distance = 0 → c.sum = 0 → c.label = 0 → Chain nodes 0 []
  | child {i : Nat} {c : Node} {path : List (Nat × Nat)} : nodes[i]? = some c → c.parent < i →
      Chain nodes c.parent path → c.distance = path.length + 1 → Chain nodes i (path ++ [(c.sum, c.label)])

/-- Nodes are the same except for what is known about their matchings. -/
def Same (a b : List Node) : Prop :=
  ∀ (i : Nat) (c : Node), a[i]? = some c → ∃ c' : Node, b[i]? = some c' ∧ c'.label = c.label ∧ c'.sum = c.sum ∧
    c'.distance = c.distance ∧ c'.parent = c.parent

theorem Same.refl (a : List Node) : Same a a := fun _ c h => ⟨c, h, rfl, rfl, rfl, rfl⟩

theorem Same.trans {a b c : List Node} (h : Same a b) (h' : Same b c) : Same a c := by
  intro i x hx
  obtain ⟨y, hy, h1, h2, h3, h4⟩ := h i x hx
  obtain ⟨z, hz, g1, g2, g3, g4⟩ := h' i y hy
  exact ⟨z, hz, g1.trans h1, g2.trans h2, g3.trans h3, g4.trans h4⟩

theorem Same.symm {a b : List Node} (h : Same a b) (hl : a.length = b.length) : Same b a := by
  intro i c hc
  have hi : i < a.length := hl ▸ (List.getElem?_eq_some_iff.1 hc).1
  obtain ⟨c', hc', h1, h2, h3, h4⟩ := h i _ (List.getElem?_eq_getElem hi)
  rw [hc] at hc'
  cases hc'
  exact ⟨_, List.getElem?_eq_getElem hi, h1.symm, h2.symm, h3.symm, h4.symm⟩

theorem Chain.same {a b : List Node} (hs : Same a b) {i : Nat} {path : List (Nat × Nat)}
    (h : Chain a i path) : Chain b i path := by
  induction h with
  | root hc h1 h2 h3 =>
    obtain ⟨c', hc', g1, g2, g3, _⟩ := hs _ _ hc
    exact .root hc' (g3.trans h1) (g2.trans h2) (g1.trans h3)
  | child hc hp _ hd ih =>
    obtain ⟨c', hc', g1, g2, g3, g4⟩ := hs _ _ hc
    have := Chain.child hc' (g4 ▸ hp) (g4 ▸ ih) (g3.trans hd)
    rwa [g1, g2] at this

theorem same_append (a b : List Node) : Same a (a ++ b) := by
  intro i c h
  exact ⟨c, by rw [List.getElem?_append_left (List.getElem?_eq_some_iff.1 h).1]; exact h, rfl, rfl, rfl, rfl⟩

theorem Chain.node {nodes : List Node} {i : Nat} {path : List (Nat × Nat)} (h : Chain nodes i path) :
    ∃ c, nodes[i]? = some c ∧ c.distance = path.length := by
  cases h with
  | root hc hd => exact ⟨_, hc, hd⟩
  | child hc _ _ hd => exact ⟨_, hc, by simp [hd]⟩

theorem Chain.unique {nodes : List Node} {i : Nat} {p : List (Nat × Nat)} (h : Chain nodes i p) :
    ∀ {q : List (Nat × Nat)}, Chain nodes i q → p = q := by
  induction h with
  | root hc hd _ _ =>
    intro q hq
    cases hq with
    | root => rfl
    | child hc' hp _ hd' => omega
  | child hc hp _ hd ih =>
    intro q hq
    cases hq with
    | root hc' => omega
    | child hc' hp' hq' hd' =>
      rw [hc] at hc'
      cases hc'
      rw [ih hq']

/-! ## `fill_suffix` -/

section
variable (ctx : MatchCtx V) (ps ts : List (Tree V)) (m : Matching V)

/-- The matchings of a node are where the node says. -/
def Stored (ms : List (Matching V)) (c : Node) (M : List (Matching V)) : Prop :=
  ∃ a b, c.first = some a.length ∧ ms = a ++ M ++ b ∧ c.num = M.length

/-- What is known about nodes is right. -/
def Memo (s : Vectors V) : Prop :=
  ∀ (i : Nat) (c : Node) path, s.nodes[i]? = some c → Chain s.nodes i path → c.first.isSome = true →
    ∃ M, fillSuffix ctx ps path ts [m] = .ok M ∧ Stored s.matchings c M

/-- The calls made along a path do what `extendMatching` does. -/
def Agrees (exts : List (Extend V)) (path : List (Nat × Nat)) : Prop :=
  ∀ q x rest, path = q ++ x :: rest → ∀ M, fillSuffix ctx ps q ts [m] = .ok M →
    ∀ p, ps[q.length]? = some p → ∀ m' ∈ M,
    extendAt exts q.length m' (ts.drop x.1) x.2 = Out.of (extendMatching ctx p m' (ts.drop x.1) x.2)

theorem Stored.append {ms new : List (Matching V)} {c : Node} {M : List (Matching V)}
    (h : Stored ms c M) : Stored (ms ++ new) c M := by
  obtain ⟨a, b, h1, rfl, h2⟩ := h
  exact ⟨a, b ++ new, h1, by simp, h2⟩

/-- Result of `fill_suffix` for the node with index `i`. -/
structure Filled (s s' : Vectors V) (i : Nat) (M : List (Matching V)) : Prop where
  same : Same s.nodes s'.nodes
  length : s'.nodes.length = s.nodes.length
  memo : Memo ctx ps ts m s'
  grown : ∃ new, s'.matchings = s.matchings ++ new
  stored : ∃ c, s'.nodes[i]? = some c ∧ Stored s'.matchings c M
  fresh : (∀ c, s.nodes[i]? = some c → c.first = none) →
    ∃ (c : Node) (f : Nat), s'.nodes[i]? = some c ∧ c.first = some f ∧ s'.matchings.drop f = M
  later : ∀ j, i < j → s'.nodes[j]? = s.nodes[j]?
  kept : ∀ (j : Nat) (c : Node), s.nodes[j]? = some c → c.first.isSome = true → s'.nodes[j]? = some c

variable {ctx ps ts m}

theorem fill_spec {exts : List (Extend V)} (hps : ps.length < 2 ^ 62) {i : Nat}
    {path : List (Nat × Nat)} {nodes0 : List Node} (hch : Chain nodes0 i path) :
    ∀ (fuel : Nat) (s : Vectors V), Same nodes0 s.nodes → nodes0.length = s.nodes.length →
    path.length < fuel → path.length ≤ ps.length → Memo ctx ps ts m s → Agrees ctx ps ts m exts path →
    (∀ c, s.nodes[0]? = some c → c.first.isSome = true) →
    match fillSuffix ctx ps path ts [m] with
    | .ok M => ∃ s', fill exts ts fuel i s = .ok s' ∧ Filled ctx ps ts m s s' i M
    | .defect => fill exts ts fuel i s = .defect
    | .ub => fill exts ts fuel i s = .ub := by
  induction hch with
  | root hc hd hs hl =>
    intro fuel s hsame hlen hf hk hmemo _ hroot
    obtain ⟨c', hc', -⟩ := hsame _ _ hc
    have hfs := hroot _ hc'
    have hchain := (Chain.root hc hd hs hl).same hsame
    obtain ⟨M, hM, hst⟩ := hmemo _ _ _ hc' hchain hfs
    rw [hM]
    obtain ⟨fuel, rfl⟩ : ∃ k, fuel = k + 1 := ⟨fuel - 1, by simp at hf; omega⟩
    refine ⟨s, by simp [fill, get_of hc', hfs], .refl _, rfl, hmemo, ⟨[], by simp⟩, ⟨_, hc', hst⟩, ?_,
      fun _ _ => rfl, fun _ _ h _ => h⟩
    intro hn
    rw [hn _ hc'] at hfs
    cases hfs
  | @child i c path hc hp hpar hd ih =>
    intro fuel s hsame hlen hf hk hmemo hag hroot
    have hchain := (Chain.child hc hp hpar hd).same hsame
    obtain ⟨c', hc', hcl, hcs, hcd, hcp⟩ := hsame _ _ hc
    obtain ⟨fuel, rfl⟩ : ∃ k, fuel = k + 1 := ⟨fuel - 1, by simp at hf; omega⟩
    by_cases hfs : c'.first.isSome = true
    · obtain ⟨M, hM, hst⟩ := hmemo _ _ _ hc' hchain hfs
      rw [hM]
      refine ⟨s, by simp [fill, get_of hc', hfs], .refl _, rfl, hmemo, ⟨[], by simp⟩, ⟨_, hc', hst⟩, ?_,
        fun _ _ => rfl, fun _ _ h _ => h⟩
      intro hn
      rw [hn _ hc'] at hfs
      cases hfs
    · simp only [List.length_append, List.length_cons, List.length_nil, Nat.zero_add] at hf hk
      have hlt : path.length < ps.length := by omega
      have hpk : ps[path.length]? = some ps[path.length] := List.getElem?_eq_getElem hlt
      rw [fillSuffix_snoc ctx ts ps path _ _ _ hpk]
      have hag' : Agrees ctx ps ts m exts path := by
        intro q x rest hq
        exact hag q x (rest ++ [(c.sum, c.label)]) (by simp [hq])
      have := ih fuel s hsame hlen (by omega) (by omega) hmemo hag' hroot
      have hfill : fill exts ts (fuel + 1) i s = (fill exts ts fuel c.parent s >>= fun s => do
          let c ← get s.nodes i
          let c := { c with first := some s.matchings.length }
          let nodes := s.nodes.set i c
          let parent ← get nodes c.parent
          match parent.first with
          | none => .ub
          | some f =>
            let ms ← extendFrom (extendAt exts (sub c.distance 1)) (ts.drop c.sum) c.label f
              parent.num 0 s.matchings
            pure ⟨nodes.set i { c with num := ms.length - s.matchings.length }, ms⟩) := by
        simp only [fill, get_of hc', Out.bind_ok, hfs, if_false, hcp]
        rfl
      rw [hfill]
      cases hM : fillSuffix ctx ps path ts [m] with
      | defect => rw [hM] at this; rw [this]; rfl
      | ub => rw [hM] at this; rw [this]; rfl
      | ok M =>
        rw [hM] at this
        obtain ⟨s1, hs1, hF⟩ := this
        rw [hs1]
        simp only [Res.bind_ok, Out.bind_ok]
        -- the node itself is as before
        have hc1 : s1.nodes[i]? = some c' := by rw [hF.later i hp]; exact hc'
        rw [get_of hc1]
        simp only [Out.bind_ok]
        obtain ⟨cp, hcp1, a, b, hfirst, hms, hnum⟩ := hF.stored
        have hne : i ≠ c.parent := by omega
        have hset : ∀ x : Node, (s1.nodes.set i x)[c'.parent]? = some cp := by
          intro x
          rw [hcp, List.getElem?_set_ne hne]
          exact hcp1
        rw [get_of (hset _)]
        simp only [Out.bind_ok, hfirst]
        have hdist : sub c'.distance 1 = path.length := by
          rw [hcd, hd, sub_le (by omega) (by omega)]
          omega
        rw [hdist, hcs, hcl, hnum]
        have hread : ∀ j m', M[j]? = some m' → s1.matchings[a.length + 0 + j]? = some m' := by
          intro j m' hj
          rw [hms, List.append_assoc, List.getElem?_append_right (by omega),
            List.getElem?_append_left]
          · rw [show a.length + 0 + j - a.length = j by omega]; exact hj
          · have := (List.getElem?_eq_some_iff.1 hj).1
            omega
        rw [extendFrom_eq M s1.matchings 0 (hag path (c.sum, c.label) [] rfl M hM _ hpk) hread]
        cases hE : Res.flatMap (fun m' => extendMatching ctx ps[path.length] m' (ts.drop c.sum) c.label) M with
        | defect => rfl
        | ub => rfl
        | ok new =>
          simp only [Out.of_ok, Out.bind_ok, Out.pure_eq]
          refine ⟨_, rfl, ?_⟩
          have hi : i < s1.nodes.length := (List.getElem?_eq_some_iff.1 hc1).1
          have hgeti : ∀ x y : Node, ((s1.nodes.set i x).set i y)[i]? = some y := by
            intro x y
            rw [List.set_set, List.getElem?_set_self hi]
          have hgetj : ∀ (x y : Node) (j : Nat), i ≠ j →
              ((s1.nodes.set i x).set i y)[j]? = s1.nodes[j]? := by
            intro x y j hj
            rw [List.set_set, List.getElem?_set_ne hj]
          have hsame1 : ∀ x y : Node, y.label = c'.label → y.sum = c'.sum → y.distance = c'.distance →
              y.parent = c'.parent → Same s1.nodes ((s1.nodes.set i x).set i y) := by
            intro x y h1 h2 h3 h4 j z hz
            by_cases hj : i = j
            · subst hj
              rw [hc1] at hz
              cases hz
              exact ⟨_, hgeti _ _, h1, h2, h3, h4⟩
            · exact ⟨z, by rw [hgetj _ _ _ hj]; exact hz, rfl, rfl, rfl, rfl⟩
          have hval : fillSuffix ctx ps (path ++ [(c.sum, c.label)]) ts [m] = .ok new := by
            rw [fillSuffix_snoc ctx ts ps path _ _ _ hpk, hM]
            exact hE
          have hsm := hsame1 { c' with first := some s1.matchings.length, label := c.label, sum := c.sum }
            { c' with first := some s1.matchings.length, label := c.label, sum := c.sum,
                      num := (s1.matchings ++ new).length - s1.matchings.length }
            hcl.symm hcs.symm rfl rfl
          refine ⟨hF.same.trans hsm, ?_, ?_, ?_, ?_, ?_, ?_, ?_⟩
          · simp [hF.length]
          · intro j y q hy hq hyf
            by_cases hj : i = j
            · subst hj
              rw [hgeti] at hy
              cases hy
              have : q = path ++ [(c.sum, c.label)] :=
                hq.unique ((Chain.child hc hp hpar hd).same (hsame.trans (hF.same.trans hsm)))
              subst this
              exact ⟨new, hval, s1.matchings, [], rfl, by simp, by simp⟩
            · rw [hgetj _ _ _ hj] at hy
              obtain ⟨M', hM', hst⟩ := hF.memo j y q hy (hq.same (hsm.symm (by simp))) hyf
              exact ⟨M', hM', hst.append⟩
          · obtain ⟨n1, hn1⟩ := hF.grown
            exact ⟨n1 ++ new, by rw [hn1]; simp⟩
          · exact ⟨_, hgeti _ _, s1.matchings, [], rfl, by simp, by simp⟩
          · intro _
            exact ⟨_, s1.matchings.length, hgeti _ _, rfl, by simp⟩
          · intro j hj
            rw [hgetj _ _ _ (by omega)]
            exact hF.later j (by omega)
          · intro j y hy hyf
            have h1 := hF.kept j y hy hyf
            by_cases hj : i = j
            · subst hj
              rw [hc1] at h1
              cases h1
              exact absurd hyf hfs
            · rw [hgetj _ _ _ hj]
              exact h1

/-! ## The loop over the last level -/

/-- The nodes from index `off` on are those of a level. -/
def Level (nodes : List Node) (off d : Nat) (xs : List (List (Nat × Nat) × Nat)) : Prop :=
  ∀ (k : Nat) x, xs[k]? = some x → ∃ c : Node, nodes[off + k]? = some c ∧ add c.sum c.label = x.2 ∧
    c.distance = d ∧ x.1.length = d ∧ Chain nodes (off + k) x.1

theorem Level.same {a b : List Node} (h : Same a b) {off d : Nat} {xs : List (List (Nat × Nat) × Nat)}
    (hl : Level a off d xs) : Level b off d xs := by
  intro k x hx
  obtain ⟨c, h1, h2, h3, h4, h5⟩ := hl k x hx
  obtain ⟨c', hc', g1, g2, g3, g4⟩ := h _ _ h1
  exact ⟨c', hc', by rw [g1, g2, h2], g3.trans h3, h4, h5.same h⟩

theorem Level.tail {a : List Node} {off d : Nat} {x : List (Nat × Nat) × Nat}
    {xs : List (List (Nat × Nat) × Nat)} (hl : Level a off d (x :: xs)) : Level a (off + 1) d xs := by
  intro k y hy
  have := hl (k + 1) y (by simpa using hy)
  rwa [show off + (k + 1) = off + 1 + k by omega] at this

theorem loop_last {exts : List (Extend V)} (hps : ps.length < 2 ^ 62) {deep : Nat}
    (hdeep : ps.length < deep) (fuel : Nat) :
    ∀ (xs : List (List (Nat × Nat) × Nat)) (off : Nat) (s : Vectors V) (out : List (Matching V)),
    Level s.nodes off ps.length xs → s.nodes.length = off + xs.length → Memo ctx ps ts m s →
    (∀ c, s.nodes[0]? = some c → c.first.isSome = true) →
    (∀ (j : Nat) (c : Node), off ≤ j → s.nodes[j]? = some c → c.first = none) →
    (∀ x ∈ xs, x.2 = ts.length → Agrees ctx ps ts m exts x.1) →
    loop exts m ps ts deep (xs.length + 1 + fuel) off s out =
      (Out.of (Res.flatMap (fun x => fillSuffix ctx ps x.1 ts [m]) (xs.filter fun x => x.2 == ts.length))
        >>= fun new => .ok (out ++ new)) := by
  intro xs
  induction xs with
  | nil =>
    intro off s out _ hlen _ _ _ _
    have : s.nodes[off]? = none := List.getElem?_eq_none (by rw [hlen]; simp)
    rw [show ([] : List (List (Nat × Nat) × Nat)).length + 1 + fuel = fuel + 1 by simp; omega]
    simp [loop, this, Res.flatMap]
  | cons x xs ih =>
    intro off s out hl hlen hmemo hroot hpend hag
    obtain ⟨c, hc, hsum, hdist, hxl, hch⟩ := hl 0 x (by simp)
    simp only [Nat.add_zero] at hc hch
    rw [show (x :: xs).length + 1 + fuel = (xs.length + 1 + fuel) + 1 by simp; omega]
    have hgrow : ∀ (i : Nat) (c : Node), c.distance = ps.length → grow m ps ts.length i c = .ok [] := by
      intro i c h
      simp [grow, h]
    simp only [List.length_cons] at hlen
    by_cases he : x.2 = ts.length
    · have hspec := fill_spec (exts := exts) hps hch deep s (.refl _) rfl (by omega) (by omega) hmemo
        (hag x (by simp) he) hroot
      have hat : atEnd exts ps.length ts deep off c s out =
          (fill exts ts deep off s >>= fun s => do
            let c ← get s.nodes off
            match c.first with
            | none => .ub
            | some f => pure (c, s, out ++ s.matchings.drop f)) := by
        simp only [atEnd, hsum, he, hdist, and_self, if_true]
        rfl
      have hfilt : (x :: xs).filter (fun x => x.2 == ts.length) =
          x :: xs.filter (fun x => x.2 == ts.length) := by simp [he]
      rw [hfilt]
      simp only [loop, hc, Res.flatMap]
      rw [hat]
      cases hM : fillSuffix ctx ps x.1 ts [m] with
      | defect => rw [hM] at hspec; rw [hspec]; rfl
      | ub => rw [hM] at hspec; rw [hspec]; rfl
      | ok M =>
        rw [hM] at hspec
        obtain ⟨s', hs', hF⟩ := hspec
        obtain ⟨c', f, hc', hf, hdrop⟩ := hF.fresh fun c hc => hpend off c (Nat.le_refl _) hc
        rw [hs']
        simp only [Out.bind_ok, get_of hc', hf, Out.pure_eq, hdrop]
        have hd' : c'.distance = ps.length := by
          obtain ⟨c2, h2, h3⟩ := (hch.same hF.same).node
          rw [hc'] at h2
          cases h2
          rw [h3, hxl]
        rw [hgrow _ _ hd']
        simp only [Out.bind_ok, List.append_nil]
        rw [show (⟨s'.nodes, s'.matchings⟩ : Vectors V) = s' from rfl]
        rw [ih (off + 1) s' (out ++ M) (hl.tail.same hF.same) (by rw [hF.length, hlen]; omega) hF.memo ?_ ?_
          fun y hy => hag y (by simp [hy])]
        · simp only [Res.bind_ok]
          cases Res.flatMap (fun x => fillSuffix ctx ps x.1 ts [m])
            (xs.filter fun x => x.2 == ts.length) with
          | ok y => simp [List.append_assoc]
          | defect => rfl
          | ub => rfl
        · intro c0 h0
          have hlt : 0 < s.nodes.length := by omega
          have h1 := List.getElem?_eq_getElem hlt
          have h2 := hF.kept 0 _ h1 (hroot _ h1)
          rw [h0] at h2
          cases h2
          exact hroot _ h1
        · intro j y hj hy
          rw [hF.later j (by omega)] at hy
          exact hpend j y (by omega) hy
    · have hfilt : (x :: xs).filter (fun x => x.2 == ts.length) =
          xs.filter (fun x => x.2 == ts.length) := by simp [he]
      have hat : atEnd exts ps.length ts deep off c s out = .ok (c, s, out) := by
        simp only [atEnd, hsum, he, false_and, if_false]
      rw [hfilt]
      simp only [loop, hc]
      rw [hat]
      simp only [Out.bind_ok, hgrow off c hdist, List.append_nil]
      exact ih (off + 1) s out hl.tail (by omega) hmemo hroot (fun j y hj => hpend j y (by omega))
        fun y hy => hag y (by simp [hy])

/-! ## The loop over the other levels -/

theorem unbound_eq {k n i s : Nat} {c : Node} (hk : k < 2 ^ 62) (hn : n < 2 ^ 62)
    (hd : c.distance < k) (hs : add c.sum c.label = s) (hs' : s < 2 ^ 63) :
    unbound k n i c =
      (Out.of (if decide (c.distance + 1 = k) = true then
          if s ≤ n then .ok [(n - s, n)] else .ok [(2 ^ 64 - (s - n), n)]
        else if s ≤ n + 1 then .ok ((List.range (n + 1 - s)).map fun i => (i, s + i))
        else .defect) >>= fun ys => .ok (ys.map fun y => child i c y.1)) := by
  have h1 : sub k 1 = k - 1 := sub_le (by omega) (by omega)
  simp only [unbound, h1, hs]
  by_cases hl : c.distance = k - 1
  · rw [if_pos hl, if_pos (by simp; omega)]
    by_cases hsn : s ≤ n
    · rw [if_pos hsn, sub_le hsn (by omega)]; rfl
    · rw [if_neg hsn, sub_gt (by omega) (by omega)]; rfl
  · have hdec : decide (c.distance + 1 = k) = false := by simp; omega
    rw [if_neg hl, hdec]
    simp only [Bool.false_eq_true, if_false]
    by_cases hsn : s ≤ n
    · rw [if_pos (by omega : s ≤ n + 1), sub_le hsn (by omega), add_small (by omega), if_pos (by omega),
        show n - s + 1 = n + 1 - s by omega]
      simp [Function.comp_def]
    · rw [sub_gt (by omega) (by omega)]
      by_cases hs1 : s = n + 1
      · subst hs1
        have : add (2 ^ 64 - (n + 1 - n)) 1 = 0 := by
          rw [show n + 1 - n = 1 by omega]; rfl
        rw [this]
        simp
      · rw [add_small (by omega), if_neg (by omega), if_neg (by omega)]
        rfl

theorem grow_eq (hm : SmallM m) {n : Nat} (hn : n < 2 ^ 62) (hps : ps.length < 2 ^ 62) {c : Node}
    {i s : Nat} {p : Tree V} (hp : ps[c.distance]? = some p) (hs : add c.sum c.label = s)
    (hs' : s < 2 ^ 63) :
    grow m ps n i c = (Out.of (suffixExtend m n p (decide (c.distance + 1 = ps.length)) s) >>=
      fun ys => .ok (ys.map fun y => child i c y.1)) := by
  have hd : c.distance < ps.length := (List.getElem?_eq_some_iff.1 hp).1
  have h1 : add s 1 = s + 1 := add_small (by omega)
  simp only [grow, if_pos hd, get_of hp, Out.bind_ok, suffixExtend, hs, h1]
  by_cases hl : p.isListVar = true
  · simp only [hl, if_true]
    by_cases hid : p.varId < maxMappedVars
    · simp only [if_pos hid]
      cases hml : m p.varId with
      | none => exact unbound_eq hps hn hd hs hs'
      | some l =>
        by_cases hsn : s + 1 ≤ n
        · simp [hsn]
        · simp only [if_neg hsn, decide_eq_false hsn]
          exact unbound_eq hps hn hd hs hs'
    · simp only [if_neg hid]; rfl
  · simp only [Bool.not_eq_true] at hl
    simp only [hl, Bool.false_eq_true, if_false]
    by_cases hsn : s < n
    · simp [hsn]
    · simp [hsn]

theorem suffixExtend_add (hm : SmallM m) {n : Nat} (hn : n < 2 ^ 62) {p : Tree V} {last : Bool} {s : Nat}
    (hs : s < 2 ^ 63) {ys : List (Nat × Nat)} (h : suffixExtend m n p last s = .ok ys) :
    ∀ y ∈ ys, add s y.1 = y.2 ∧ y.2 < 2 ^ 63 := by
  have key : ∀ ys', (if last = true then
          if s ≤ n then (.ok [(n - s, n)] : Res (List (Nat × Nat))) else .ok [(2 ^ 64 - (s - n), n)]
        else if s ≤ n + 1 then .ok ((List.range (n + 1 - s)).map fun i => (i, s + i))
        else .defect) = .ok ys' → ∀ y ∈ ys', add s y.1 = y.2 ∧ y.2 < 2 ^ 63 := by
    intro ys' h y hy
    split at h
    · split at h
      · cases h
        simp only [List.mem_singleton] at hy
        subst hy
        exact ⟨by simp only [add]; omega, by simp only; omega⟩
      · cases h
        simp only [List.mem_singleton] at hy
        subst hy
        exact ⟨by simp only [add]; omega, by simp only; omega⟩
    · split at h
      · cases h
        simp only [List.mem_map, List.mem_range] at hy
        obtain ⟨i, hi, rfl⟩ := hy
        exact ⟨by simp only [add]; omega, by simp only; omega⟩
      · cases h
  simp only [suffixExtend] at h
  split at h
  · split at h
    · split at h
      · next l hl hd =>
        cases h
        intro y hy
        simp only [List.mem_singleton] at hy
        subst hy
        have := hm _ _ hl
        simp only [decide_eq_true_eq] at hd
        exact ⟨by simp only [add]; omega, by simp only; omega⟩
      · exact key ys h
    · cases h
  · split at h
    · cases h
      intro y hy
      simp only [List.mem_singleton] at hy
      subst hy
      exact ⟨by simp only [add]; omega, by simp only; omega⟩
    · cases h
      intro y hy
      simp at hy

/-- The nodes of the next level that come from one node. -/
def extendOne (m : Matching V) (n : Nat) (p : Tree V) (last : Bool) (x : List (Nat × Nat) × Nat) :
    Res (List (List (Nat × Nat) × Nat)) := do
  let ext ← suffixExtend m n p last x.2
  pure (ext.map fun y => (x.1 ++ [(x.2, y.1)], y.2))

/-- Result of the loop over one level. -/
theorem loop_level (hm : SmallM m) (hts : ts.length < 2 ^ 62)
    (hps : ps.length < 2 ^ 62) {d : Nat} {p : Tree V} (hp : ps[d]? = some p) :
    ∀ (xs ys : List (List (Nat × Nat) × Nat)) (off : Nat) (nodes : List Node),
    Level nodes off d xs → Level nodes (off + xs.length) (d + 1) ys →
    nodes.length = off + xs.length + ys.length → (∀ x ∈ xs, x.2 < 2 ^ 63) → (∀ y ∈ ys, y.2 < 2 ^ 63) →
    match Res.flatMap (extendOne m ts.length p (decide (d + 1 = ps.length))) xs with
    | .ok zs => ∃ new, Level (nodes ++ new) (off + xs.length) (d + 1) (ys ++ zs) ∧
        (nodes ++ new).length = off + xs.length + (ys ++ zs).length ∧ (∀ c ∈ new, c.first = none) ∧
        (∀ y ∈ ys ++ zs, y.2 < 2 ^ 63) ∧
        ∀ (exts : List (Extend V)) (deep : Nat) (ms out : List (Matching V)) (fuel : Nat), loop exts m ps ts deep (xs.length + fuel) off ⟨nodes, ms⟩ out =
          loop exts m ps ts deep fuel (off + xs.length) ⟨nodes ++ new, ms⟩ out
    | .defect => ∀ (exts : List (Extend V)) (deep : Nat) (ms out : List (Matching V)) (fuel : Nat), loop exts m ps ts deep (xs.length + fuel) off ⟨nodes, ms⟩ out = .defect
    | .ub => ∀ (exts : List (Extend V)) (deep : Nat) (ms out : List (Matching V)) (fuel : Nat), loop exts m ps ts deep (xs.length + fuel) off ⟨nodes, ms⟩ out = .ub := by
  intro xs
  induction xs with
  | nil =>
    intro ys off nodes _ hy hlen _ hys
    exact ⟨[], by simpa using hy, by simpa using hlen, by simp, by simpa using hys, by simp⟩
  | cons x xs ih =>
    intro ys off nodes hl hy hlen hxs hys
    obtain ⟨c, hc, hsum, hdist, hxl, hch⟩ := hl 0 x (by simp)
    simp only [Nat.add_zero] at hc hch
    have hdlt : d < ps.length := (List.getElem?_eq_some_iff.1 hp).1
    have hstep : ∀ (exts : List (Extend V)) (deep : Nat) (ms out : List (Matching V)) (fuel : Nat), loop exts m ps ts deep ((x :: xs).length + fuel) off ⟨nodes, ms⟩ out =
        (grow m ps ts.length off c >>= fun new =>
          loop exts m ps ts deep (xs.length + fuel) (off + 1) ⟨nodes ++ new, ms⟩ out) := by
      intro exts deep ms out fuel
      rw [show (x :: xs).length + fuel = (xs.length + fuel) + 1 by simp; omega]
      have hat : atEnd exts ps.length ts deep off c ⟨nodes, ms⟩ out = .ok (c, ⟨nodes, ms⟩, out) := by
        simp only [atEnd]
        rw [if_neg (by omega)]
      simp only [loop, hc]
      rw [hat]
      rfl
    have hgrow := grow_eq (i := off) hm hts hps (hdist ▸ hp) hsum (hxs x (by simp))
    rw [hdist] at hgrow
    simp only [Res.flatMap, extendOne]
    cases hE : suffixExtend m ts.length p (decide (d + 1 = ps.length)) x.2 with
    | defect => intro _ _ _ _ fuel; rw [hstep, hgrow, hE]; rfl
    | ub => intro _ _ _ _ fuel; rw [hstep, hgrow, hE]; rfl
    | ok es =>
      rw [hE] at hgrow
      simp only [Out.of_ok, Out.bind_ok] at hgrow
      simp only [hgrow, Out.bind_ok] at hstep
      have hadd := suffixExtend_add hm hts (hxs x (by simp)) hE
      simp only [List.length_cons] at hlen hy
      have hlev : Level (nodes ++ es.map fun y => child off c y.1) (off + 1 + xs.length) (d + 1)
          (ys ++ es.map fun y => (x.1 ++ [(x.2, y.1)], y.2)) := by
        intro k z hz
        by_cases hk : k < ys.length
        · rw [List.getElem?_append_left hk] at hz
          have := (hy.same (same_append _ (es.map fun y => child off c y.1))) k z hz
          rwa [show off + (xs.length + 1) + k = off + 1 + xs.length + k by omega] at this
        · rw [List.getElem?_append_right (by omega), List.getElem?_map] at hz
          cases he : es[k - ys.length]? with
          | none => rw [he] at hz; cases hz
          | some e =>
            rw [he] at hz
            cases hz
            have hget : (nodes ++ es.map fun y => child off c y.1)[off + 1 + xs.length + k]? =
                some (child off c e.1) := by
              rw [List.getElem?_append_right (by omega), List.getElem?_map,
                show off + 1 + xs.length + k - nodes.length = k - ys.length by omega, he]
              rfl
            have hm' := hadd e (List.mem_of_getElem? he)
            refine ⟨_, hget, ?_, by simp [child, hdist], by simp [hxl], ?_⟩
            · simp only [child, hsum]; exact hm'.1
            · have := Chain.child hget (by simp only [child]; omega)
                (hch.same (same_append _ _)) (by simp only [child]; omega)
              simpa only [child, hsum] using this
      have := ih (ys ++ es.map fun y => (x.1 ++ [(x.2, y.1)], y.2)) (off + 1)
        (nodes ++ es.map fun y => child off c y.1) (hl.tail.same (same_append _ _)) hlev
        (by simp only [List.length_append, List.length_map]; omega) (fun x hx => hxs x (by simp [hx]))
        (by
          intro y hy'
          rcases List.mem_append.1 hy' with h | h
          · exact hys y h
          · obtain ⟨e, he, rfl⟩ := List.mem_map.1 h
            exact (hadd e he).2)
      simp only [Res.bind_ok, Res.pure_eq]
      cases hR : Res.flatMap (extendOne m ts.length p (decide (d + 1 = ps.length))) xs with
      | defect => rw [hR] at this; intro e p q o fuel; rw [hstep]; exact this e p q o fuel
      | ub => rw [hR] at this; intro e p q o fuel; rw [hstep]; exact this e p q o fuel
      | ok zs =>
        rw [hR] at this
        obtain ⟨new, h1, h2, h3, h4, h5⟩ := this
        refine ⟨(es.map fun y => child off c y.1) ++ new, ?_, ?_, ?_, ?_, ?_⟩
        · simp only [List.length_cons]
          rw [← List.append_assoc, ← List.append_assoc,
            show off + (xs.length + 1) = off + 1 + xs.length by omega]
          exact h1
        · simp only [List.length_cons, List.length_append, List.length_map] at h2 ⊢
          omega
        · intro c' hc'
          rcases List.mem_append.1 hc' with h | h
          · obtain ⟨e, _, rfl⟩ := List.mem_map.1 h
            rfl
          · exact h3 c' h
        · rw [← List.append_assoc]; exact h4
        · intro _ _ _ _ fuel
          rw [hstep, h5]
          simp only [List.length_cons]
          rw [← List.append_assoc, show off + (xs.length + 1) = off + 1 + xs.length by omega]

theorem loop_levels (hm : SmallM m) (hts : ts.length < 2 ^ 62)
    (hps : ps.length < 2 ^ 62) :
    ∀ (rest : List (Tree V)) (d : Nat) (xs : List (List (Nat × Nat) × Nat)) (off : Nat)
      (nodes : List Node), ps.drop d = rest → d ≤ ps.length → Level nodes off d xs →
    nodes.length = off + xs.length → (∀ x ∈ xs, x.2 < 2 ^ 63) →
    match suffixLevels m ts.length rest xs with
    | .ok zs => ∃ (N off' : Nat) (new : List Node), Level (nodes ++ new) off' ps.length zs ∧
        (nodes ++ new).length = off' + zs.length ∧ (∀ c ∈ new, c.first = none) ∧
        off ≤ off' ∧ (rest ≠ [] → nodes.length ≤ off') ∧
        ∀ (exts : List (Extend V)) (deep : Nat) (ms out : List (Matching V)) (fuel : Nat), loop exts m ps ts deep (N + fuel) off ⟨nodes, ms⟩ out =
          loop exts m ps ts deep fuel off' ⟨nodes ++ new, ms⟩ out
    | .defect => ∃ N : Nat, ∀ (exts : List (Extend V)) (deep : Nat) (ms out : List (Matching V)) (fuel : Nat), loop exts m ps ts deep (N + fuel) off ⟨nodes, ms⟩ out = .defect
    | .ub => ∃ N : Nat, ∀ (exts : List (Extend V)) (deep : Nat) (ms out : List (Matching V)) (fuel : Nat), loop exts m ps ts deep (N + fuel) off ⟨nodes, ms⟩ out = .ub := by
  intro rest
  induction rest with
  | nil =>
    intro d xs off nodes hdrop hd hl hlen _
    have : d = ps.length := by
      have := congrArg List.length hdrop
      simp at this
      omega
    subst this
    exact ⟨0, off, [], by simpa using hl, by simpa using hlen, by simp, Nat.le_refl _, by simp, by simp⟩
  | cons p rest ih =>
    intro d xs off nodes hdrop hd hl hlen hxs
    have hlt : d < ps.length := by
      have := congrArg List.length hdrop
      simp at this
      omega
    have hp : ps[d]? = some p := by
      have := congrArg (fun l : List (Tree V) => l[0]?) hdrop
      simpa using this
    have hdrop' : ps.drop (d + 1) = rest := by
      have := congrArg List.tail hdrop
      simpa using this
    have hlast : decide (d + 1 = ps.length) = rest.isEmpty := by
      have hl' := congrArg List.length hdrop'
      simp only [List.length_drop] at hl'
      cases rest with
      | nil => simp at hl' ⊢; omega
      | cons r rs => simp at hl' ⊢; omega
    have hlevel := loop_level hm hts hps hp xs []
      off nodes hl (by intro k x hx; simp at hx) (by simpa using hlen) hxs (by simp)
    rw [hlast] at hlevel
    have hsl : suffixLevels m ts.length (p :: rest) xs =
        (Res.flatMap (extendOne m ts.length p rest.isEmpty) xs >>= suffixLevels m ts.length rest) := rfl
    rw [hsl]
    cases hR : Res.flatMap (extendOne m ts.length p rest.isEmpty) xs with
    | defect => rw [hR] at hlevel; exact ⟨_, hlevel⟩
    | ub => rw [hR] at hlevel; exact ⟨_, hlevel⟩
    | ok zs =>
      rw [hR] at hlevel
      obtain ⟨new, h1, h2, h3, h4, h5⟩ := hlevel
      simp only [List.nil_append] at h1 h2 h4
      have := ih (d + 1) zs (off + xs.length) (nodes ++ new) hdrop' hlt h1 h2 h4
      simp only [Res.bind_ok]
      cases hS : suffixLevels m ts.length rest zs with
      | defect =>
        rw [hS] at this
        obtain ⟨N, hN⟩ := this
        exact ⟨xs.length + N, fun e p q o fuel => by rw [Nat.add_assoc, h5]; exact hN e p q o fuel⟩
      | ub =>
        rw [hS] at this
        obtain ⟨N, hN⟩ := this
        exact ⟨xs.length + N, fun e p q o fuel => by rw [Nat.add_assoc, h5]; exact hN e p q o fuel⟩
      | ok ws =>
        rw [hS] at this
        obtain ⟨N, off', new', g1, g2, g3, g4, -, g5⟩ := this
        refine ⟨xs.length + N, off', new ++ new', by rw [← List.append_assoc]; exact g1,
          by rw [← List.append_assoc]; exact g2, ?_, by omega, ?_, ?_⟩
        · intro c hc
          rcases List.mem_append.1 hc with h | h
          · exact h3 c h
          · exact g3 c h
        · intro _
          omega
        · intro _ _ _ _ fuel
          rw [Nat.add_assoc, h5, g5, List.append_assoc]

/-! ## All of it -/

/-- `match_parameter_lists` with enough fuel. -/
theorem matchLists_eq (hm : SmallM m) (hts : ts.length < 2 ^ 62) (hps : ps.length < 2 ^ 62) :
    match suffixLevels m ts.length ps [([], 0)] with
    | .ok zs => ∃ F, ∀ fuel, F ≤ fuel → ∀ exts,
        (∀ x ∈ zs, x.2 = ts.length → Agrees ctx ps ts m exts x.1) →
        matchLists exts m ps ts fuel =
          Out.of (Res.flatMap (fun x => fillSuffix ctx ps x.1 ts [m])
            (zs.filter fun x => x.2 == ts.length))
    | .defect => ∃ F, ∀ fuel, F ≤ fuel → ∀ exts, matchLists exts m ps ts fuel = .defect
    | .ub => ∃ F, ∀ fuel, F ≤ fuel → ∀ exts, matchLists exts m ps ts fuel = .ub := by
  have hroot : Level [root] 0 0 [([], 0)] := by
    intro k x hx
    have hk : k = 0 := by
      have := (List.getElem?_eq_some_iff.1 hx).1
      simp at this
      exact this
    subst hk
    cases hx
    exact ⟨root, rfl, rfl, rfl, rfl, .root rfl rfl rfl rfl⟩
  have h := loop_levels hm hts hps ps 0 [([], 0)] 0 [root] rfl (Nat.zero_le _) hroot rfl (by simp)
  cases hS : suffixLevels m ts.length ps [([], 0)] with
  | defect =>
    rw [hS] at h
    obtain ⟨N, hN⟩ := h
    refine ⟨N, fun fuel hf exts => ?_⟩
    obtain ⟨k, rfl⟩ := Nat.exists_eq_add_of_le hf
    exact hN _ _ _ _ _
  | ub =>
    rw [hS] at h
    obtain ⟨N, hN⟩ := h
    refine ⟨N, fun fuel hf exts => ?_⟩
    obtain ⟨k, rfl⟩ := Nat.exists_eq_add_of_le hf
    exact hN _ _ _ _ _
  | ok zs =>
    rw [hS] at h
    obtain ⟨N, off', new, h1, h2, h3, h4, h5, h6⟩ := h
    cases hp : ps with
    | nil =>
      -- the root is the only node
      subst hp
      cases hS
      refine ⟨2, fun fuel hf exts _ => ?_⟩
      obtain ⟨k, rfl⟩ := Nat.exists_eq_add_of_le hf
      rw [show 2 + k = k + 1 + 1 by omega]
      by_cases h0 : ts.length = 0
      · simp [matchLists, loop, root, atEnd, add, fill, get, grow, h0, Res.flatMap, fillSuffix]
      · simp [matchLists, loop, root, atEnd, add, grow, h0, Ne.symm h0, Res.flatMap]
    | cons p0 rest =>
      rw [← hp]
      have hpne : ps ≠ [] := by rw [hp]; simp
      have hoff : 1 ≤ off' := h5 hpne
      refine ⟨N + (zs.length + 1) + (ps.length + 1), fun fuel hf exts hag => ?_⟩
      obtain ⟨k, rfl⟩ := Nat.exists_eq_add_of_le hf
      have hloop := h6 exts (N + (zs.length + 1) + (ps.length + 1) + k) [m] []
        (zs.length + 1 + (ps.length + 1 + k))
      rw [show N + (zs.length + 1 + (ps.length + 1 + k)) = N + (zs.length + 1) + (ps.length + 1) + k
        by omega] at hloop
      rw [matchLists, hloop]
      have hfirst : ([root] ++ new)[0]? = some root := rfl
      rw [loop_last hps (by omega) _ zs off' ⟨[root] ++ new, [m]⟩ [] h1 h2 ?_ ?_ ?_ hag]
      · cases Res.flatMap (fun x => fillSuffix ctx ps x.1 ts [m])
          (zs.filter fun x => x.2 == ts.length) <;> simp [Out.of]
      · intro i c path hc hch hcf
        cases i with
        | zero =>
          rw [hfirst] at hc
          cases hc
          have : path = [] := hch.unique (.root hfirst rfl rfl rfl)
          subst this
          exact ⟨[m], by cases ps <;> simp [fillSuffix], [], [], rfl, by simp, rfl⟩
        | succ i =>
          have : c ∈ new := List.mem_of_getElem? (by simpa using hc)
          rw [h3 c this] at hcf
          cases hcf
      · intro c hc
        rw [hfirst] at hc
        cases hc
        rfl
      · intro j c hj hc
        obtain ⟨j, rfl⟩ : ∃ j', j = j' + 1 := ⟨j - 1, by omega⟩
        exact h3 c (List.mem_of_getElem? (by simpa using hc))

/-- Enough fuel for every element of a list. -/
theorem enough_all {α : Type} {P : Nat → α → Prop} (l : List α)
    (h : ∀ a ∈ l, ∃ F, ∀ fuel, F ≤ fuel → P fuel a) : ∃ F, ∀ fuel, F ≤ fuel → ∀ a ∈ l, P fuel a := by
  induction l with
  | nil => exact ⟨0, by simp⟩
  | cons a l ih =>
    obtain ⟨F, hF⟩ := h a (by simp)
    obtain ⟨G, hG⟩ := ih fun b hb => h b (by simp [hb])
    refine ⟨max F G, fun fuel hf b hb => ?_⟩
    rcases List.mem_cons.1 hb with rfl | hb
    · exact hF fuel (by omega)
    · exact hG fuel (by omega) b hb

/-- With enough fuel a call does what `extendMatching` does. -/
def Eventually (ctx : MatchCtx V) (p : Tree V) : Prop :=
  ∀ (m : Matching V) (avail : List (Tree V)) (size : Nat), SmallM m → avail.length < 2 ^ 62 →
    (∀ u ∈ avail, Narrow u) →
    ∃ F, ∀ fuel, F ≤ fuel → extend ctx fuel p m avail size = Out.of (extendMatching ctx p m avail size)

theorem agrees_eventually (hm : SmallM m) (hts : ts.length < 2 ^ 62) (hn : ∀ u ∈ ts, Narrow u)
    (hev : ∀ p ∈ ps, Eventually ctx p) (path : List (Nat × Nat)) :
    ∃ F, ∀ fuel, F ≤ fuel → Agrees ctx ps ts m (extendAll ctx fuel ps) path := by
  -- for each position of the path
  have key : ∀ i ∈ List.range path.length, ∃ F, ∀ fuel, F ≤ fuel → ∀ x, path[i]? = some x →
      ∀ M, fillSuffix ctx ps (path.take i) ts [m] = .ok M → ∀ p, ps[i]? = some p → ∀ m' ∈ M,
      extendAt (extendAll ctx fuel ps) i m' (ts.drop x.1) x.2 =
        Out.of (extendMatching ctx p m' (ts.drop x.1) x.2) := by
    intro i hi
    have hi' : i < path.length := by simpa using hi
    cases hM : fillSuffix ctx ps (path.take i) ts [m] with
    | defect => exact ⟨0, fun _ _ _ _ M h => by cases h⟩
    | ub => exact ⟨0, fun _ _ _ _ M h => by cases h⟩
    | ok M =>
      cases hp : ps[i]? with
      | none => exact ⟨0, fun _ _ _ _ _ _ p h => by cases h⟩
      | some p =>
        have hsm : ∀ m' ∈ M, SmallM m' := fillSuffix_small ctx hM (by simpa using hm) hts hn
        obtain ⟨F, hF⟩ := enough_all (P := fun fuel m' =>
          extend ctx fuel p m' (ts.drop path[i].1) path[i].2 =
            Out.of (extendMatching ctx p m' (ts.drop path[i].1) path[i].2)) M
          fun m' hm' => hev p (List.mem_of_getElem? hp) m' _ _ (hsm m' hm')
            (by simp only [List.length_drop]; omega) fun u hu => hn u (List.mem_of_mem_drop hu)
        refine ⟨F, fun fuel hf x hx M' hM' p' hp' m' hm' => ?_⟩
        cases hM'
        cases hp'
        rw [List.getElem?_eq_getElem hi'] at hx
        cases hx
        rw [extendAt, get_of (a := extend ctx fuel p) (by rw [extendAll_eq, List.getElem?_map, hp]; rfl)]
        exact hF fuel hf m' hm'
  obtain ⟨F, hF⟩ := enough_all _ key
  refine ⟨F, fun fuel hf q x rest hq M hM p hp m' hm' => ?_⟩
  have hlt : q.length < path.length := by rw [hq]; simp
  refine hF fuel hf q.length (by simpa using hlt) x (by rw [hq]; simp) M ?_ p hp m' hm'
  rw [hq]
  simpa using hM

theorem extend_eq (p : Tree V) : Narrow p → Eventually ctx p := by
  refine Tree.rec (motive_1 := fun p => Narrow p → Eventually ctx p)
    (motive_2 := fun l => NarrowAll l → ∀ p ∈ l, Eventually ctx p) ?_ ?_ ?_ ?_ ?_ p
  · intro v i _ m avail size _ _ _
    exact ⟨0, fun _ _ => rfl⟩
  · intro n x i _ m avail size _ _ _
    exact ⟨0, fun _ _ => rfl⟩
  · intro o ps i ih hnp m avail size hm ha hn
    by_cases h1 : size = 1
    · subst h1
      cases avail with
      | nil => exact ⟨0, fun _ _ => rfl⟩
      | cons t rest =>
        cases t with
        | const v j => exact ⟨0, fun _ _ => rfl⟩
        | var n x j => exact ⟨0, fun _ _ => rfl⟩
        | op q ts j =>
          by_cases hid : o.id = q.id
          · have ht : Narrow (.op q ts j) := hn _ (by simp)
            have hev := ih hnp.2
            have hmain := matchLists_eq (ctx := ctx) hm ht.1 hnp.1
            have hext : ∀ fuel, extend ctx fuel (.op o ps i) m (.op q ts j :: rest) 1 =
                matchLists (extendAll ctx fuel ps) m ps ts fuel := by
              intro fuel
              simp [extend, hid]
            have hpure : extendMatching ctx (.op o ps i) m (.op q ts j :: rest) 1 =
                (suffixLevels m ts.length ps [([], 0)] >>= fun nodes =>
                  Res.flatMap (fun x => fillSuffix ctx ps x.1 ts [m])
                    (nodes.filter fun x => x.2 == ts.length)) := by
              simp [extendMatching, hid]
            simp only [hext, hpure]
            cases hS : suffixLevels m ts.length ps [([], 0)] with
            | defect =>
              rw [hS] at hmain
              obtain ⟨F, hF⟩ := hmain
              exact ⟨F, fun fuel hf => hF fuel hf _⟩
            | ub =>
              rw [hS] at hmain
              obtain ⟨F, hF⟩ := hmain
              exact ⟨F, fun fuel hf => hF fuel hf _⟩
            | ok zs =>
              rw [hS] at hmain
              obtain ⟨F, hF⟩ := hmain
              obtain ⟨G, hG⟩ := enough_all (P := fun fuel (x : List (Nat × Nat) × Nat) =>
                Agrees ctx ps ts m (extendAll ctx fuel ps) x.1) zs
                fun x _ => agrees_eventually hm ht.1 (narrowAll_mem ht.2) hev x.1
              exact ⟨max F G, fun fuel hf => hF fuel (by omega) _ fun x hx _ => hG fuel (by omega) x hx⟩
          · exact ⟨0, fun _ _ => by simp [extend, extendMatching, hid]⟩
    · exact ⟨0, fun _ _ => by simp [extend, extendMatching, h1]⟩
  · intro _ p hp; simp at hp
  · intro c cs h1 h2 hn p hp
    rcases List.mem_cons.1 hp with rfl | hp
    · exact h1 hn.1
    · exact h2 hn.2 p hp

end

end Suffix
end Verif
