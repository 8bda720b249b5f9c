import Verif.Model.Rewrite

/-!
# What a matching binds are parts of the tree
-/

namespace Verif
variable {V : Type}

/-- All trees of a matching have the property `P`. -/
def BoundIn (P : Tree V → Prop) (m : Matching V) : Prop := ∀ id l, m id = some l → ∀ u ∈ l, P u

theorem Res.flatMap_mem {α β : Type} {f : α → Res (List β)} : ∀ {as : List α} {bs : List β},
    Res.flatMap f as = .ok bs → ∀ b ∈ bs, ∃ a ∈ as, ∃ l, f a = .ok l ∧ b ∈ l
  | [], bs, h, b, hb => by
    simp only [Res.flatMap, Res.ok.injEq] at h
    subst h
    simp at hb
  | a :: as, bs, h, b, hb => by
    simp only [Res.flatMap] at h
    cases h1 : f a with
    | ok x =>
      rw [h1] at h
      cases h2 : Res.flatMap f as with
      | ok y =>
        rw [h2] at h
        cases h
        rcases List.mem_append.mp hb with hb | hb
        · exact ⟨a, by simp, x, h1, hb⟩
        · obtain ⟨a', ha', l, hl⟩ := Res.flatMap_mem h2 b hb
          exact ⟨a', by simp [ha'], l, hl⟩
      | defect => rw [h2] at h; cases h
      | ub => rw [h2] at h; cases h
    | defect => rw [h1] at h; cases h
    | ub => rw [h1] at h; cases h

mutual
theorem extendMatching_bound {P : Tree V → Prop}
    (hP : ∀ o cs i, P (.op o cs i) → ∀ c ∈ cs, P c) (ctx : MatchCtx V) :
    ∀ {pat : Tree V} {m : Matching V} {avail : List (Tree V)} {size : Nat} {ms : List (Matching V)},
    extendMatching ctx pat m avail size = .ok ms → BoundIn P m → (∀ u ∈ avail, P u) →
    ∀ m' ∈ ms, BoundIn P m'
  | .var x id i, m, avail, size, ms, h, hm, ha, m', hm' => by
    simp only [extendMatching] at h
    split at h
    · split at h
      · split at h
        · cases hb : nodelistsEqual ctx.eqV _ avail with
          | ok b =>
            rw [hb] at h
            cases h
            split at hm'
            · simp only [List.mem_singleton] at hm'; exact hm' ▸ hm
            · simp at hm'
          | defect => rw [hb] at h; cases h
          | ub => rw [hb] at h; cases h
        · cases h; simp at hm'
      · split at h
        · cases hb : checkConstraints ctx (m.bind id (avail.take size)) (ctx.constraints id) with
          | ok b =>
            simp only [hb] at h
            cases h
            split at hm'
            · simp only [List.mem_singleton] at hm'
              subst hm'
              intro j l hl u hu
              simp only [Matching.bind] at hl
              split at hl
              · cases hl; exact ha u (List.mem_of_mem_take hu)
              · exact hm j l hl u hu
            · simp at hm'
          | defect => simp only [hb] at h; cases h
          | ub => simp only [hb] at h; cases h
        · cases h
    · cases h
  | .const v i, m, avail, size, ms, h, hm, ha, m', hm' => by
    simp only [extendMatching] at h
    split at h
    · split at h
      · cases h
      · cases h
        split at hm'
        · simp only [List.mem_singleton] at hm'; exact hm' ▸ hm
        · simp at hm'
    · cases h; simp at hm'
  | .op o ps i, m, avail, size, ms, h, hm, ha, m', hm' => by
    simp only [extendMatching] at h
    split at h
    · split at h
      · cases h
      · next q ts j rest =>
        split at h
        · cases hs : suffixLevels m ts.length ps [([], 0)] with
          | ok nodes =>
            rw [hs] at h
            replace h : Res.flatMap (fun x => fillSuffix ctx ps x.1 ts [m])
              (nodes.filter fun x => x.2 == ts.length) = .ok ms := h
            obtain ⟨x, _, l, hl, hml⟩ := Res.flatMap_mem h m' hm'
            exact fillSuffix_bound hP ctx hl (by simpa using hm)
              (hP _ _ _ (ha (.op q ts j) (by simp))) m' hml
          | defect => rw [hs] at h; cases h
          | ub => rw [hs] at h; cases h
        · cases h; simp at hm'
      · cases h; simp at hm'
    · cases h; simp at hm'
theorem fillSuffix_bound {P : Tree V → Prop}
    (hP : ∀ o cs i, P (.op o cs i) → ∀ c ∈ cs, P c) (ctx : MatchCtx V) :
    ∀ {ps : List (Tree V)} {path : List (Nat × Nat)} {ts : List (Tree V)} {ms ms' : List (Matching V)},
    fillSuffix ctx ps path ts ms = .ok ms' → (∀ m ∈ ms, BoundIn P m) → (∀ u ∈ ts, P u) →
    ∀ m' ∈ ms', BoundIn P m'
  | p :: ps, (sum, label) :: path, ts, ms, ms', h, hm, ht, m', hm' => by
    simp only [fillSuffix] at h
    cases h1 : Res.flatMap (fun m => extendMatching ctx p m (ts.drop sum) label) ms with
    | ok ms1 =>
      rw [h1] at h
      refine fillSuffix_bound hP ctx (ps := ps) h (fun m1 hm1 => ?_) ht m' hm'
      obtain ⟨m0, hm0, l, hl, hml⟩ := Res.flatMap_mem h1 m1 hm1
      exact extendMatching_bound hP ctx hl (hm m0 hm0) (fun u hu => ht u (List.mem_of_mem_drop hu)) m1 hml
    | defect => rw [h1] at h; cases h
    | ub => rw [h1] at h; cases h
  | [], path, ts, ms, ms', h, hm, ht, m', hm' => by
    simp only [fillSuffix] at h
    cases h
    exact hm m' hm'
  | p :: ps, [], ts, ms, ms', h, hm, ht, m', hm' => by
    simp only [fillSuffix] at h
    cases h
    exact hm m' hm'
end

theorem getMatching_bound {P : Tree V → Prop} (hP : ∀ o cs i, P (.op o cs i) → ∀ c ∈ cs, P c)
    {eqV : V → V → Bool} {checker : Tree V → Bool} {pat : Pattern V} {t : Tree V} {m : Matching V}
    (h : getMatching eqV checker pat t = .ok (some m)) (ht : P t) : BoundIn P m := by
  simp only [getMatching, getAllMatchings] at h
  cases h1 : extendMatching ⟨eqV, pat.constraints, checker⟩ pat.tree Matching.empty [t] 1 with
  | ok ms =>
    rw [h1] at h
    have hh : ms.head? = some m := by
      replace h : (Res.ok ms.head? : Res (Option (Matching V))) = .ok (some m) := h
      exact Res.ok.inj h
    exact extendMatching_bound hP _ h1 (fun id l hl => by simp [Matching.empty] at hl)
      (by simpa using ht) m (List.mem_of_mem_head? hh)
  | defect => rw [h1] at h; cases h
  | ub => rw [h1] at h; cases h

mutual
theorem findMatching_bound {P : Tree V → Prop} (hP : ∀ o cs i, P (.op o cs i) → ∀ c ∈ cs, P c)
    {eqV : V → V → Bool} {checker : Tree V → Bool} {pat : Pattern V} : ∀ {t : Tree V} {p p' : Path}
    {m : Matching V}, findMatching eqV checker pat t p = .ok (some (p', m)) → P t → BoundIn P m
  | .const v i, p, p', m, h, ht => by
    simp only [findMatching] at h
    cases h1 : getMatching eqV checker pat (.const v i) with
    | ok r =>
      rw [h1] at h
      cases r with
      | none => cases h
      | some m1 => cases h; exact getMatching_bound hP h1 ht
    | defect => rw [h1] at h; cases h
    | ub => rw [h1] at h; cases h
  | .var x k i, p, p', m, h, ht => by
    simp only [findMatching] at h
    cases h1 : getMatching eqV checker pat (.var x k i) with
    | ok r =>
      rw [h1] at h
      cases r with
      | none => cases h
      | some m1 => cases h; exact getMatching_bound hP h1 ht
    | defect => rw [h1] at h; cases h
    | ub => rw [h1] at h; cases h
  | .op o cs i, p, p', m, h, ht => by
    simp only [findMatching] at h
    cases h1 : getMatching eqV checker pat (.op o cs i) with
    | ok r =>
      rw [h1] at h
      cases r with
      | none => exact findMatchings_bound hP (k := 0) h (hP o cs i ht)
      | some m1 => cases h; exact getMatching_bound hP h1 ht
    | defect => rw [h1] at h; cases h
    | ub => rw [h1] at h; cases h
theorem findMatchings_bound {P : Tree V → Prop} (hP : ∀ o cs i, P (.op o cs i) → ∀ c ∈ cs, P c)
    {eqV : V → V → Bool} {checker : Tree V → Bool} {pat : Pattern V} : ∀ {ts : List (Tree V)} {p p' : Path}
    {k : Nat} {m : Matching V}, findMatchings eqV checker pat ts p k = .ok (some (p', m)) →
    (∀ c ∈ ts, P c) → BoundIn P m
  | [], p, p', k, m, h, ht => by simp only [findMatchings] at h; cases h
  | c :: cs, p, p', k, m, h, ht => by
    simp only [findMatchings] at h
    cases h1 : findMatching eqV checker pat c (p ++ [k]) with
    | ok r =>
      rw [h1] at h
      cases r with
      | none => exact findMatchings_bound hP (k := k + 1) h fun d hd => ht d (by simp [hd])
      | some m1 => cases h; exact findMatching_bound hP h1 (ht c (by simp))
    | defect => rw [h1] at h; cases h
    | ub => rw [h1] at h; cases h
end

end Verif
