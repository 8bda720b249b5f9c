import Verif.Lemmas.SimplifyInv

/-!
# The shorthand of derivatives
-/

namespace Verif
open TreeProps MatchProps RewriteProps
variable {V ε : Type}

/-- `e'` with one operand. -/
def Tree.isPrime (id : Nat) : Tree V → Bool
  | .op o [_] _ => o.id == id
  | _ => false

/-- The operand. -/
def Tree.first : Tree V → Tree V
  | .op _ (c :: _) _ => c
  | t => t

/-- What matches `x'`. -/
theorem prime_match (eqV : V → V → Bool) (ck : Tree V → Bool) (o : Op) {x : Str} (hx : isListName x = false)
    (j k : Nat) (s : Tree V) :
    getMatching eqV ck ⟨.op o [.var x 0 j] k, fun _ => []⟩ s
      = .ok (if s.isPrime o.id then some (Matching.empty.bind 0 [s.first]) else none) := by
  cases s with
  | const => simp [getMatching, getAllMatchings, extendMatching, Tree.isPrime, Res.pure_eq]
  | var => simp [getMatching, getAllMatchings, extendMatching, Tree.isPrime, Res.pure_eq]
  | op q ts i =>
    simp only [getMatching, getAllMatchings, extendMatching]
    by_cases h : o.id = q.id
    · rw [if_pos trivial, if_pos h]
      cases ts with
      | nil =>
        simp [suffixLevels, Res.flatMap, suffixExtend, Tree.isListVar, hx, Res.pure_eq, Tree.isPrime]
      | cons c ts =>
        cases ts with
        | nil =>
          simp [suffixLevels, Res.flatMap, suffixExtend, Tree.isListVar, hx, Res.pure_eq, Tree.isPrime, h,
            fillSuffix, extendMatching, maxMappedVars, Matching.empty, checkConstraints, Tree.first]
        | cons d ts =>
          simp [suffixLevels, Res.flatMap, suffixExtend, Tree.isListVar, hx, Res.pure_eq, Tree.isPrime]
    · rw [if_pos trivial, if_neg h]
      simp only [Res.bind_ok, Res.pure_eq, List.head?_nil, Res.ok.injEq]
      rw [if_neg]
      cases ts with
      | nil => simp [Tree.isPrime]
      | cons c ts => cases ts <;> simp [Tree.isPrime, Ne.symm h]

/-- No `e'`. -/
inductive NoPrime (id : Nat) : Tree V → Prop where
  | const {v i} : NoPrime id (.const v i)
  | var {n x i} : NoPrime id (.var n x i)
  | op {o cs i} : (Tree.op o cs i).isPrime id = false → (∀ c ∈ cs, NoPrime id c) → NoPrime id (.op o cs i)

/-- `s` at `p` is the first `e'`. -/
inductive PrimeAt (id : Nat) : Tree V → Path → Tree V → Prop where
  | here {s} : s.isPrime id = true → PrimeAt id s [] s
  | child {o cs ds c p s i} : (Tree.op o (cs ++ c :: ds) i).isPrime id = false → (∀ d ∈ cs, NoPrime id d) →
      PrimeAt id c p s → PrimeAt id (.op o (cs ++ c :: ds) i) (cs.length :: p) s

theorem PrimeAt.deref {id : Nat} {t s : Tree V} {p : Path} (h : PrimeAt id t p s) : t.deref p = some s := by
  induction h with
  | @here s _ => cases s <;> rfl
  | child _ _ _ ih => simpa [Tree.deref] using ih

theorem PrimeAt.replaced {id : Nat} {t s : Tree V} {p : Path} (h : PrimeAt id t p s) (r : Tree V) :
    Replaced t p s r (t.replaceAt p r) := replaceAt_spec _ _ _ _ h.deref

theorem PrimeAt.prime {id : Nat} {t s : Tree V} {p : Path} (h : PrimeAt id t p s) : s.isPrime id = true := by
  induction h with
  | here h => exact h
  | child _ _ _ ih => exact ih

/-- The first `e'` is found. -/
theorem find_prime (eqV : V → V → Bool) (ck : Tree V → Bool) (o : Op) {x : Str} (hx : isListName x = false)
    (j k : Nat) (t : Tree V) : ∀ p,
    (findMatching eqV ck ⟨.op o [.var x 0 j] k, fun _ => []⟩ t p = .ok none ∧ NoPrime o.id t) ∨
    ∃ q s, findMatching eqV ck ⟨.op o [.var x 0 j] k, fun _ => []⟩ t p
        = .ok (some (p ++ q, Matching.empty.bind 0 [s.first])) ∧ PrimeAt o.id t q s := by
  refine Tree.rec
    (motive_1 := fun t => ∀ p,
      (findMatching eqV ck ⟨.op o [.var x 0 j] k, fun _ => []⟩ t p = .ok none ∧ NoPrime o.id t) ∨
      ∃ q s, findMatching eqV ck ⟨.op o [.var x 0 j] k, fun _ => []⟩ t p
          = .ok (some (p ++ q, Matching.empty.bind 0 [s.first])) ∧ PrimeAt o.id t q s)
    (motive_2 := fun l => ∀ p n,
      (findMatchings eqV ck ⟨.op o [.var x 0 j] k, fun _ => []⟩ l p n = .ok none ∧ ∀ c ∈ l, NoPrime o.id c) ∨
      ∃ a c b q s, l = a ++ c :: b ∧ (∀ d ∈ a, NoPrime o.id d) ∧ PrimeAt o.id c q s ∧
        findMatchings eqV ck ⟨.op o [.var x 0 j] k, fun _ => []⟩ l p n
          = .ok (some (p ++ (n + a.length) :: q, Matching.empty.bind 0 [s.first])))
    ?_ ?_ ?_ ?_ ?_ t
  · intro v i p
    left
    simp only [findMatching, prime_match eqV ck o hx, Tree.isPrime]
    exact ⟨rfl, .const⟩
  · intro n y i p
    left
    simp only [findMatching, prime_match eqV ck o hx, Tree.isPrime]
    exact ⟨rfl, .var⟩
  · intro q cs i ih p
    simp only [findMatching, prime_match eqV ck o hx]
    cases hp : (Tree.op q cs i).isPrime o.id with
    | true =>
      right
      refine ⟨[], .op q cs i, ?_, .here hp⟩
      simp [Res.bind_ok, Res.pure_eq]
    | false =>
      simp only [Bool.false_eq_true, if_false, Res.bind_ok]
      rcases ih p 0 with ⟨h1, h2⟩ | ⟨a, c, b, q', s, rfl, h1, h2, h3⟩
      · exact .inl ⟨h1, .op hp h2⟩
      · right
        exact ⟨a.length :: q', s, by simpa using h3, .child hp h1 h2⟩
  · intro p n
    left
    exact ⟨rfl, by simp⟩
  · intro c cs h1 h2 p n
    simp only [findMatchings]
    rcases h1 (p ++ [n]) with ⟨g1, g2⟩ | ⟨q, s, g1, g2⟩
    · rw [g1]
      simp only [Res.bind_ok]
      rcases h2 p (n + 1) with ⟨k1, k2⟩ | ⟨a, d, b, q', s, rfl, k1, k2, k3⟩
      · left
        refine ⟨k1, ?_⟩
        simp only [List.mem_cons, forall_eq_or_imp]
        exact ⟨g2, k2⟩
      · right
        refine ⟨c :: a, d, b, q', s, rfl, ?_, k2, ?_⟩
        · simp only [List.mem_cons, forall_eq_or_imp]
          exact ⟨g2, k1⟩
        · rw [k3]
          simp only [List.length_cons]
          rw [show n + 1 + a.length = n + (a.length + 1) by omega]
    · right
      refine ⟨[], c, cs, q, s, rfl, by simp, g2, ?_⟩
      rw [g1]
      simp [Res.bind_ok, Res.pure_eq]

mutual
/-- How many `e'` there are. -/
def Tree.primes (id : Nat) : Tree V → Nat
  | .op o cs i => (if (Tree.op o cs i).isPrime id then 1 else 0) + Tree.primesList id cs
  | _ => 0
def Tree.primesList (id : Nat) : List (Tree V) → Nat
  | [] => 0
  | c :: cs => Tree.primes id c + Tree.primesList id cs
end

theorem primesList_append (id : Nat) (a b : List (Tree V)) :
    Tree.primesList id (a ++ b) = Tree.primesList id a + Tree.primesList id b := by
  induction a with
  | nil => simp [Tree.primesList]
  | cons c a ih => simp [Tree.primesList, ih]; omega

theorem isPrime_child {id : Nat} {o : Op} {cs ds : List (Tree V)} {c c' : Tree V} {i : Nat} :
    (Tree.op o (cs ++ c' :: ds) i).isPrime id = (Tree.op o (cs ++ c :: ds) i).isPrime id := by
  cases cs with
  | nil => cases ds <;> rfl
  | cons a cs => cases cs <;> rfl

theorem PrimeAt.primes {id : Nat} {t s : Tree V} {p : Path} (h : PrimeAt id t p s) {d : Op} (hd : d.id ≠ id)
    {v : Tree V} (hv : v.primes id = 0) (i : Nat) :
    (t.replaceAt p (.op d [s.first, v] i)).primes id + 1 = t.primes id := by
  induction h with
  | @here s h =>
    cases s with
    | const => cases h
    | var => cases h
    | op o cs j =>
      match cs, h with
      | [c], h =>
        simp only [Tree.replaceAt, Tree.first, Tree.primes, Tree.isPrime, Tree.primesList, hv]
        simp only [Tree.isPrime] at h
        simp [h]
        omega
  | @child o cs ds c p s j h1 h2 h3 ih =>
    have e : (Tree.op o (cs ++ c :: ds) j).replaceAt (cs.length :: p) (.op d [s.first, v] i)
        = .op o (cs ++ (c.replaceAt p (.op d [s.first, v] i)) :: ds) j := by
      simp [Tree.replaceAt]
    rw [e]
    simp only [Tree.primes]
    rw [isPrime_child (c := c), primesList_append, primesList_append]
    simp only [Tree.primesList]
    omega

/-- The condition on trees: the operator `'` always has one operand, variables have the id 0. -/
abbrev PlainPrime (prime : Op) : Tree V → Prop :=
  Within (fun o n => o.id = prime.id → o = prime ∧ n = 1) (fun _ x => x = 0) (fun _ => True)

theorem NoPrime.explicit {prime : Op} (deriv : Op) (z : Tree V) {t : Tree V} (h : NoPrime prime.id t)
    (ht : PlainPrime prime t) : Explicit prime deriv z t t := by
  induction h with
  | const => exact .const
  | var => exact .var
  | @op o cs i h1 h2 ih =>
    cases ht with
    | op g1 _ g3 =>
      refine .op rfl ?_ fun k hk => ih _ (List.getElem_mem hk) (g3 _ (List.getElem_mem hk))
      rintro rfl
      obtain ⟨-, g⟩ := g1 rfl
      obtain ⟨c, rfl⟩ := List.length_eq_one_iff.1 g
      simp [Tree.isPrime] at h1

theorem NoPrime.explicit_iff {prime : Op} (deriv : Op) (z : Tree V) {t u : Tree V} (h : NoPrime prime.id t)
    (hu : Explicit prime deriv z t u) : u = t := by
  induction hu with
  | const => rfl
  | var => rfl
  | op hl h1 _ ih =>
    cases h with
    | op g1 g2 =>
      congr 1
      refine List.ext_getElem hl.symm fun k h1 h2 => ih k h2 (g2 _ (List.getElem_mem _))
  | one _ _ _ _ => cases h with | op g1 _ => simp [Tree.isPrime] at g1
  | none _ _ _ => cases h with | op g1 _ => simp [Tree.isPrime] at g1

theorem isPrime_op {prime : Op} {s : Tree V} (h : s.isPrime prime.id = true) (hs : PlainPrime prime s) :
    ∃ c i, s = .op prime [c] i := by
  cases s with
  | const => cases h
  | var => cases h
  | op o cs i =>
    match cs, h with
    | [c], h =>
      cases hs with
      | op g _ _ =>
        simp only [Tree.isPrime, beq_iff_eq] at h
        obtain ⟨rfl, -⟩ := g h
        exact ⟨c, i, rfl⟩

/-- Replacing the first shorthand. -/
theorem PrimeAt.explicit {prime deriv : Op} {z : Tree V} {t s : Tree V} {p : Path}
    (h : PrimeAt prime.id t p s) (ht : PlainPrime prime t) {r u : Tree V} (hu : Explicit prime deriv z (t.replaceAt p r) u)
    (hr : ∀ w, Explicit prime deriv z r w → Explicit prime deriv z s w) : Explicit prime deriv z t u := by
  induction h generalizing u with
  | here => exact hr _ (by simpa [Tree.replaceAt] using hu)
  | @child o cs ds c p s j h1 h2 h3 ih =>
    have e : (Tree.op o (cs ++ c :: ds) j).replaceAt (cs.length :: p) r
        = .op o (cs ++ (c.replaceAt p r) :: ds) j := by simp [Tree.replaceAt]
    rw [e] at hu
    have ho : o ≠ prime := by
      rintro rfl
      cases ht with
      | op g _ _ =>
        obtain ⟨-, g⟩ := g rfl
        simp only [List.length_append, List.length_cons] at g
        obtain rfl : cs = [] := List.length_eq_zero_iff.1 (by omega)
        obtain rfl : ds = [] := List.length_eq_zero_iff.1 (by simp at g; exact List.length_eq_zero_iff.2 g)
        simp [Tree.isPrime] at h1
    generalize he : Tree.op o (cs ++ (c.replaceAt p r) :: ds) j = x at hu
    cases hu with
    | const => cases he
    | var => cases he
    | one => injection he with he; exact absurd he ho
    | none => injection he with he; exact absurd he ho
    | @op o' cs' es i' hl _ h =>
      injection he with e1 e2 e3
      subst e1 e2 e3
      have hl' : (cs ++ c :: ds).length = es.length := by rw [← hl]; simp
      refine .op hl' ho fun k hk => ?_
      have hk1 : k < (cs ++ c.replaceAt p r :: ds).length := by simpa using hk
      have g := h k hk1
      by_cases hc : k = cs.length
      · subst hc
        simp only [List.getElem_append_right (Nat.le_refl _), Nat.sub_self, List.getElem_cons_zero] at g ⊢
        exact ih (ht.child _ (by simp)) g hr
      · have : (cs ++ c.replaceAt p r :: ds)[k] = (cs ++ c :: ds)[k] := by
          rw [List.getElem_append, List.getElem_append]
          split
          · rfl
          · obtain ⟨m, hm⟩ : ∃ m, k - cs.length = m + 1 := ⟨k - cs.length - 1, by omega⟩
            simp only [hm, List.getElem_cons_succ]
        rw [this] at g
        exact g

theorem addNew_one {ns : List Str} (h : (addNew [] ns).length ≤ 1) :
    (addNew [] ns = [] ∧ ns = []) ∨ ∃ v, addNew [] ns = [v] ∧ v ∈ ns ∧ ∀ n ∈ ns, n = v := by
  have hm := (addNew_first ns).mem
  cases hA : addNew [] ns with
  | nil =>
    left
    refine ⟨rfl, ?_⟩
    cases ns with
    | nil => rfl
    | cons a ns =>
      have := (hm a).2 (by simp)
      rw [hA] at this
      cases this
  | cons v l =>
    rw [hA] at h hm
    have : l = [] := List.length_eq_zero_iff.1 (by simpa using h)
    subst this
    right
    exact ⟨v, rfl, (hm v).1 (by simp), fun n hn => by simpa using (hm n).2 hn⟩

theorem Within.ids_zero {O : Op → Nat → Prop} {T : Nat → Prop} {f : Str → Nat} {t : Tree V} (h : Within O (fun _ x => x = 0) T t)
    (hf : ∀ n ∈ t.names, f n = 0) : t.withIds f = t := by
  induction t using Tree.induct with
  | hc => rfl
  | hv n x i =>
    cases h with
    | var h => subst h; simp [Tree.withIds, hf n (by simp [Tree.names])]
  | ho o cs i ih =>
    simp only [Tree.withIds, withIdsList_eq]
    congr 1
    conv => rhs; rw [← List.map_id cs]
    refine List.map_congr_left fun c hc => ih c hc (h.child c hc) fun n hn => hf n ?_
    simp only [Tree.names]
    exact namesList_mem.2 ⟨c, hc, hn⟩

theorem PrimeAt.mem {id : Nat} {t s : Tree V} {p : Path} (h : PrimeAt id t p s) : (p, s) ∈ t.preorder [] :=
  (mem_preorder t [] p s).2 ⟨p, by simp, h.deref⟩

theorem deref_iff {t s : Tree V} {p : Path} : (p, s) ∈ t.preorder [] ↔ t.deref p = some s := by
  rw [mem_preorder]
  constructor
  · rintro ⟨q, rfl, h⟩; exact h
  · exact fun h => ⟨p, by simp, h⟩

/-- Replacing a shorthand makes no other ambiguous. -/
theorem PrimeAt.ambiguous {prime deriv : Op} {t s c : Tree V} {p : Path} {i j : Nat}
    (h : PrimeAt prime.id t p s) (hs : s = .op prime [c] i) (hd : deriv.id ≠ prime.id) {n : Str} {x k : Nat}
    (ha : Ambiguous prime (t.replaceAt p (.op deriv [c, .var n x k] i)) j) : Ambiguous prime t j := by
  obtain ⟨q, d, a, b, h1, h2, h3, h4⟩ := ha
  suffices hh : ∃ q, t.deref q = some (.op prime [d] j) by
    obtain ⟨q, hq⟩ := hh
    exact ⟨q, d, a, b, deref_iff.2 hq, h2, h3, h4⟩
  rw [deref_iff] at h1
  clear h2 h3 h4
  induction h generalizing q with
  | @here s h =>
    subst hs
    simp only [Tree.replaceAt] at h1
    match q, h1 with
    | [], h1 =>
      simp only [Tree.deref, Option.some.injEq, Tree.op.injEq] at h1
      exact absurd (congrArg Op.id h1.1) hd
    | 0 :: q, h1 => exact ⟨0 :: q, by simpa [Tree.deref] using h1⟩
    | 1 :: [], h1 => simp [Tree.deref] at h1
    | 1 :: _ :: _, h1 => simp [Tree.deref] at h1
    | (_ + 2) :: _, h1 => simp [Tree.deref] at h1
  | @child o cs ds c' p s i' g1 g2 g3 ih =>
    have e : ∀ r, (Tree.op o (cs ++ c' :: ds) i').replaceAt (cs.length :: p) r
        = .op o (cs ++ (c'.replaceAt p r) :: ds) i' := fun r => by simp [Tree.replaceAt]
    rw [e] at h1
    cases q with
    | nil =>
      simp only [Tree.deref, Option.some.injEq, Tree.op.injEq] at h1
      obtain ⟨rfl, h1, -⟩ := h1
      rw [isPrime_child (c' := c'.replaceAt p (.op deriv [c, .var n x k] i)) (c := c') |>.symm, h1] at g1
      simp [Tree.isPrime] at g1
    | cons m q =>
      by_cases hm : m = cs.length
      · subst hm
        simp only [Tree.deref, List.getElem?_append_right (Nat.le_refl _), Nat.sub_self, List.getElem?_cons_zero] at h1
        obtain ⟨q', hq'⟩ := ih hs q h1
        exact ⟨cs.length :: q', by simpa [Tree.deref] using hq'⟩
      · refine ⟨m :: q, ?_⟩
        have : (cs ++ c'.replaceAt p (.op deriv [c, .var n x k] i) :: ds)[m]? = (cs ++ c' :: ds)[m]? := by
          rw [List.getElem?_append, List.getElem?_append]
          split
          · rfl
          · obtain ⟨l, hl⟩ : ∃ l, m - cs.length = l + 1 := ⟨m - cs.length - 1, by omega⟩
            simp only [hl, List.getElem?_cons_succ]
        simp only [Tree.deref, this] at h1
        simpa only [Tree.deref] using h1

/-- With all shorthand written out nothing is ambiguous. -/
theorem Explicit.not_ambiguous {prime deriv : Op} {z t u : Tree V} (h : Explicit prime deriv z t u) {i : Nat} :
    ¬ Ambiguous prime t i := by
  rintro ⟨q, d, a, b, h1, h2, h3, h4⟩
  rw [deref_iff] at h1
  induction h generalizing q with
  | const => cases q <;> simp [Tree.deref] at h1
  | var => cases q <;> simp [Tree.deref] at h1
  | @op o cs ds i hl ho _ ih =>
    cases q with
    | nil =>
      simp only [Tree.deref, Option.some.injEq, Tree.op.injEq] at h1
      exact ho h1.1
    | cons m q =>
      simp only [Tree.deref] at h1
      split at h1
      · rename_i c hc
        obtain ⟨hk, rfl⟩ := List.getElem?_eq_some_iff.1 hc
        exact ih m hk q h1
      · cases h1
  | one g1 g2 _ ih =>
    match q, h1 with
    | [], h1 =>
      simp only [Tree.deref, Option.some.injEq, Tree.op.injEq, List.cons.injEq] at h1
      obtain ⟨-, ⟨rfl, -⟩, -⟩ := h1
      exact h4 ((g2 a h2).trans (g2 b h3).symm)
    | 0 :: q, h1 => exact ih q (by simpa [Tree.deref] using h1)
    | (_ + 1) :: _, h1 => simp [Tree.deref] at h1
  | none g1 _ ih =>
    match q, h1 with
    | [], h1 =>
      simp only [Tree.deref, Option.some.injEq, Tree.op.injEq, List.cons.injEq] at h1
      obtain ⟨-, ⟨rfl, -⟩, -⟩ := h1
      rw [g1] at h2
      cases h2
    | 0 :: q, h1 => exact ih q (by simpa [Tree.deref] using h1)
    | (_ + 1) :: _, h1 => simp [Tree.deref] at h1

theorem two_of_addNew {ns : List Str} (h : 1 < (addNew [] ns).length) : ∃ a b, a ∈ ns ∧ b ∈ ns ∧ a ≠ b := by
  have hm := (addNew_first ns).mem
  have hn := (addNew_first ns).nodup
  match hA : addNew [] ns, h with
  | a :: b :: l, _ =>
    rw [hA] at hm hn
    refine ⟨a, b, (hm a).1 (by simp), (hm b).1 (by simp), ?_⟩
    rintro rfl
    simp at hn

/-- What `list_variables` with room for two finds. -/
theorem listVariables_two (t : Tree V) : (1 < (listVariables 2 t).count ∧ 1 < (addNew [] t.names).length) ∨
    (¬ 1 < (listVariables 2 t).count ∧ (addNew [] t.names).length ≤ 1 ∧ (listVariables 2 t).vars = addNew [] t.names ∧
      (listVariables 2 t).tree = t.withIds (addNew [] t.names).idxOf) := by
  by_cases h : (addNew [] t.names).length ≤ 2
  · have hl := listVariables_ok h
    rw [hl]
    by_cases h1 : 1 < (addNew [] t.names).length
    · exact .inl ⟨h1, h1⟩
    · exact .inr ⟨h1, by omega, rfl, rfl⟩
  · have h2 := C22_list_variables 2 t _ (by rw [varNames_eq]; exact addNew_first _)
    rw [if_neg h] at h2
    exact .inl ⟨by rw [h2.2.2]; omega, by omega⟩

theorem Machine.shorthand_exact (M : Machine V ε) {prime deriv : Op} (hd : deriv.id ≠ prime.id) {x : Str}
    (hx : isListName x = false) {j k i : Nat} {a : Tree V} {z : Str} {zx zi : Nat} (fuel : Nat) (t : Tree V)
    (ht : PlainPrime prime t) (hz : zx = 0) (hf : t.primes prime.id < fuel) :
    (∃ u, M.shorthandLoop ⟨.op prime [.var x 0 j] k, fun _ => []⟩ (.op deriv [a, .var z zx zi] i) fuel t = .ok (.ok u) ∧
      Explicit prime deriv (.var z zx zi) t u) ∨
    ∃ n, M.shorthandLoop ⟨.op prime [.var x 0 j] k, fun _ => []⟩ (.op deriv [a, .var z zx zi] i) fuel t
        = .ok (.error (.malformedA, n)) ∧ Ambiguous prime t n := by
  induction fuel generalizing t with
  | zero => omega
  | succ fuel ih =>
    simp only [Machine.shorthandLoop]
    rcases find_prime M.dbl.eq (fun _ => true) prime hx j k t [] with ⟨h1, h2⟩ | ⟨q, s, h1, h2⟩
    · left
      rw [h1]
      exact ⟨t, rfl, h2.explicit deriv _ ht⟩
    · rw [h1]
      have hps : PlainPrime prime s := Within.sub (h2.replaced s) ht
      obtain ⟨c, m, rfl⟩ := isPrime_op h2.prime hps
      have hc : PlainPrime prime c := hps.child c (by simp)
      have hnames : (Tree.op prime [c] m).names = c.names := by simp [Tree.names, Tree.namesList]
      simp only [Out.of, Out.bind_ok, List.nil_append, h2.deref]
      rcases listVariables_two (Tree.op prime [c] m) with ⟨g1, g2⟩ | ⟨g1, g2, g3, -⟩
      · right
        rw [if_pos g1]
        rw [hnames] at g2
        obtain ⟨v, w, hv, hw, hvw⟩ := two_of_addNew g2
        refine ⟨m, rfl, q, c, v, w, h2.mem, ?_, ?_, hvw⟩
        · rw [varNames_eq]; exact hv
        · rw [varNames_eq]; exact hw
      · rw [if_neg g1]
        simp only [Matching.bind, if_true, Tree.first]
        rw [hnames] at g2 g3
        rcases listVariables_two c with ⟨-, k1⟩ | ⟨-, -, -, k2⟩
        · omega
        have htree : (listVariables 2 c).tree = c := by
          rw [k2]
          refine hc.ids_zero fun n hn => ?_
          rcases addNew_one g2 with ⟨-, e⟩ | ⟨v, e1, e2, e3⟩
          · rw [e] at hn; cases hn
          · rw [e1, e3 n hn]; simp
        rw [htree, g3]
        have key : ∀ (v : Tree V) (n : Str) (y l : Nat), v = .var n y l → y = 0 →
            derivReplacement (.op deriv [a, .var z zx zi] i) (addNew [] c.names) m c = .ok (.op deriv [c, v] m) →
            (∀ w, Explicit prime deriv (.var z zx zi) c w →
              Explicit prime deriv (.var z zx zi) (.op prime [c] m) (.op deriv [w, v] m)) →
            (∃ u, (do
                let r ← Out.of (derivReplacement (.op deriv [a, .var z zx zi] i) (addNew [] c.names) m c)
                M.shorthandLoop ⟨.op prime [.var x 0 j] k, fun _ => []⟩ (.op deriv [a, .var z zx zi] i) fuel (t.replaceAt q r))
                  = .ok (.ok u) ∧ Explicit prime deriv (.var z zx zi) t u) ∨
            ∃ n, (do
                let r ← Out.of (derivReplacement (.op deriv [a, .var z zx zi] i) (addNew [] c.names) m c)
                M.shorthandLoop ⟨.op prime [.var x 0 j] k, fun _ => []⟩ (.op deriv [a, .var z zx zi] i) fuel (t.replaceAt q r))
                  = .ok (.error (.malformedA, n)) ∧ Ambiguous prime t n := by
          intro v n y l hv hy hr hex
          rw [hr]
          simp only [Out.of, Out.bind_ok]
          have hpr := h2.primes (d := deriv) hd (v := v) (by rw [hv]; rfl) m
          have hpl : PlainPrime prime (t.replaceAt q (.op deriv [c, v] m)) := by
            refine Within.replaced (h2.replaced _) (.op (fun e => absurd e hd) trivial ?_) ht
            simp only [List.mem_cons, List.not_mem_nil, or_false]
            rintro e (rfl | rfl)
            · exact hc
            · rw [hv]; exact .var hy
          rcases ih _ hpl (by simp only [Tree.first] at hpr; omega) with ⟨u, e1, e2⟩ | ⟨n', e1, e2⟩
          · left
            refine ⟨u, e1, h2.explicit ht e2 fun w hw => ?_⟩
            generalize he : Tree.op deriv [c, v] m = r at hw
            cases hw with
            | const => cases he
            | var => cases he
            | one => injection he with he; exact absurd (congrArg Op.id he) hd
            | none => injection he with he; exact absurd (congrArg Op.id he) hd
            | @op o' cs' es i' hl _ h =>
              injection he with e1 e2 e3
              subst e1 e2 e3
              match es, hl, h with
              | [w1, w2], hl, h =>
                have h0 := h 0 (by simp)
                have h1 := h 1 (by simp)
                simp only [List.getElem_cons_zero, List.getElem_cons_succ] at h0 h1
                rw [hv] at h1
                cases h1
                rw [← hv]
                exact hex _ h0
          · right
            rw [hv] at e2
            exact ⟨n', e1, h2.ambiguous rfl hd e2⟩
        rcases addNew_one g2 with ⟨e1, e2⟩ | ⟨v, e1, e2, e3⟩
        · refine key (.var z zx zi) z zx zi rfl hz ?_ fun w hw => .none (by rw [varNames_eq, e2]) hw
          rw [e1]
          simp [derivReplacement, treeCopy_eq]
        · refine key (.var v 0 0) v 0 0 rfl rfl ?_ fun w hw => .one (by rw [varNames_eq]; exact e2) (by rw [varNames_eq]; exact e3) hw
          rw [e1]
          simp [derivReplacement, treeCopy_eq]

end Verif
