import Verif.Props.Rewrite
import Verif.Spec.Session

/-!
# Expansion of user functions
-/

namespace Verif
open TreeProps MatchProps RewriteProps
variable {V : Type}

/-- Variables with the ids `k`, `k + 1`, ... that are no list variables. -/
def PlainVars : Nat → List (Tree V) → Prop
  | _, [] => True
  | k, c :: cs => (∃ n i, c = .var n k i ∧ isListName n = false) ∧ PlainVars (k + 1) cs

theorem suffixLevels_nil (m : Matching V) (n : Nat) (ps : List (Tree V)) :
    suffixLevels m n ps [] = .ok [] := by
  induction ps with
  | nil => rfl
  | cons p ps ih => simp [suffixLevels, Res.flatMap, ih]

/-- Offsets and labels of `len` plain variables from `s` on. -/
def plainPath (s : Nat) : Nat → List (Nat × Nat)
  | 0 => []
  | len + 1 => (s, 1) :: plainPath (s + 1) len

theorem suffixLevels_plain (m : Matching V) (n : Nat) (ps : List (Tree V)) :
    ∀ k s path, PlainVars k ps →
    suffixLevels m n ps [(path, s)] =
      .ok (if s + ps.length ≤ n ∨ ps = [] then [(path ++ plainPath s ps.length, s + ps.length)] else []) := by
  induction ps with
  | nil => intro k s path _; simp [suffixLevels, plainPath]
  | cons p ps ih =>
    intro k s path h
    obtain ⟨⟨nm, i, rfl, hl⟩, h⟩ := h
    have hx : suffixExtend m n (.var nm k i) ps.isEmpty s = if s < n then .ok [(1, s + 1)] else .ok [] := by
      simp [suffixExtend, Tree.isListVar, hl]
    simp only [suffixLevels, Res.flatMap, hx]
    by_cases hs : s < n
    · simp only [if_pos hs, Res.bind_ok, Res.pure_eq, List.map_cons, List.map_nil, List.append_nil]
      rw [ih (k + 1) (s + 1) _ h]
      congr 1
      cases ps with
      | nil => simp [plainPath]; omega
      | cons q ps =>
        simp only [List.length_cons, reduceCtorEq, or_false, plainPath, List.append_assoc,
          List.cons_append, List.nil_append]
        have : s + 1 + (ps.length + 1) = s + (ps.length + 1 + 1) := by omega
        rw [this]
    · simp only [if_neg hs, Res.bind_ok, Res.pure_eq, List.map_nil, List.append_nil]
      rw [suffixLevels_nil]
      have : ¬ (s + (List.length ps + 1) ≤ n) := by omega
      simp [this]

theorem fillSuffix_plain (ctx : MatchCtx V) (hc : ∀ id, ctx.constraints id = []) (ts : List (Tree V))
    (ps : List (Tree V)) : ∀ k s (m : Matching V), PlainVars k ps → k + ps.length ≤ maxMappedVars →
    s + ps.length ≤ ts.length → (∀ id, k ≤ id → m id = none) →
    ∃ m', fillSuffix ctx ps (plainPath s ps.length) ts [m] = .ok [m'] ∧
      ∀ id, m' id = if k ≤ id ∧ id < k + ps.length then (ts[s + (id - k)]?).map (fun t => [t]) else m id := by
  induction ps with
  | nil =>
    intro k s m _ _ _ _
    refine ⟨m, rfl, ?_⟩
    intro id
    rw [if_neg]
    simp only [List.length_nil]
    omega
  | cons p ps ih =>
    intro k s m h hk hs hm
    obtain ⟨⟨nm, i, rfl, hl⟩, h⟩ := h
    simp only [List.length_cons] at hk hs
    have hlen : 1 ≤ (ts.drop s).length := by rw [List.length_drop]; omega
    obtain ⟨m', h1, h2⟩ := ih (k + 1) (s + 1) (m.bind k ((ts.drop s).take 1)) h (by omega) (by omega)
      (by
        intro id hid
        simp only [Matching.bind]
        rw [if_neg (by omega)]
        exact hm id (by omega))
    refine ⟨m', ?_, ?_⟩
    · simp only [List.length_cons, plainPath, fillSuffix, Res.flatMap, extendMatching, hm k (Nat.le_refl _),
        if_pos hlen, hc, checkConstraints, Res.bind_ok, Res.pure_eq]
      rw [if_pos (by omega)]
      simpa using h1
    · intro id
      rw [h2 id]
      simp only [List.length_cons]
      by_cases hid : id = k
      · subst hid
        rw [if_neg (by omega), if_pos (by omega)]
        simp only [Matching.bind, if_true, Nat.sub_self, Nat.add_zero]
        rw [List.getElem?_eq_getElem (by omega), List.drop_eq_getElem_cons (by omega)]
        rfl
      · by_cases hid2 : k + 1 ≤ id ∧ id < k + 1 + ps.length
        · rw [if_pos hid2, if_pos (by omega)]
          have : s + 1 + (id - (k + 1)) = s + (id - k) := by omega
          rw [this]
        · rw [if_neg hid2, if_neg (by omega)]
          simp [Matching.bind, hid]

/-- The matching of a call with the arguments `ts`. -/
def callMatching (ts : List (Tree V)) : Matching V := fun id => (ts[id]?).map fun t => [t]

/-- Is it a call of the operator with this id and number of arguments? -/
def isCall (o : Op) (n : Nat) : Tree V → Bool
  | .op q ts _ => o.id == q.id && n == ts.length
  | _ => false

/-- Matching a pattern that is a call with plain variables. -/
theorem match_call {o : Op} {ps : List (Tree V)} {i : Nat} (hp : PlainVars 0 ps)
    (hlen : ps.length ≤ maxMappedVars) (eqV : V → V → Bool) (checker : Tree V → Bool) (s : Tree V) :
    getMatching eqV checker ⟨.op o ps i, fun _ => []⟩ s =
      .ok (match s with
        | .op q ts _ => if o.id = q.id ∧ ps.length = ts.length then some (callMatching ts) else none
        | _ => none) := by
  unfold getMatching getAllMatchings
  cases s with
  | const v j => simp [extendMatching]
  | var n x j => simp [extendMatching]
  | op q ts j =>
    simp only [extendMatching, if_true]
    by_cases hid : o.id = q.id
    · rw [if_pos hid, suffixLevels_plain _ _ ps 0 0 [] hp]
      by_cases hl : ps.length = ts.length
      · simp only [hid, hl, Nat.zero_add, Nat.le_refl, true_or, if_true, Res.bind_ok, List.nil_append,
          List.filter_cons, beq_self_eq_true, List.filter_nil, Res.flatMap, and_self]
        obtain ⟨m', h1, h2⟩ := fillSuffix_plain (⟨eqV, fun _ => [], checker⟩ : MatchCtx V) (fun _ => rfl) ts ps 0 0
          Matching.empty hp (by omega) (by omega) (fun _ _ => rfl)
        rw [hl] at h1
        rw [h1]
        simp only [Res.bind_ok, Res.pure_eq, List.append_nil, List.head?_cons]
        congr 2
        funext id
        rw [h2 id]
        simp only [Nat.zero_le, true_and, Nat.zero_add, Nat.sub_zero, callMatching, Matching.empty, hl]
        split
        · rfl
        · rw [List.getElem?_eq_none (by omega)]; rfl
      · rw [if_neg (c := o.id = q.id ∧ ps.length = ts.length) (by rintro ⟨-, h⟩; exact hl h)]
        simp only [Nat.zero_add]
        by_cases hle : ps.length ≤ ts.length ∨ ps = []
        · rw [if_pos hle]
          simp [Res.flatMap, hl]
        · rw [if_neg hle]
          simp [Res.flatMap]
    · rw [if_neg hid, if_neg (by rintro ⟨h, -⟩; exact hid h)]
      simp

theorem findMatching_isOk {eqV : V → V → Bool} {checker : Tree V → Bool} {pat : Pattern V}
    (h : ∀ s, ∃ r, getMatching eqV checker pat s = .ok r) (t : Tree V) :
    ∀ p, ∃ r, findMatching eqV checker pat t p = .ok r := by
  refine Tree.rec
    (motive_1 := fun t => ∀ p, ∃ r, findMatching eqV checker pat t p = .ok r)
    (motive_2 := fun l => ∀ p k, ∃ r, findMatchings eqV checker pat l p k = .ok r)
    ?_ ?_ ?_ ?_ ?_ t
  · intro v i p
    obtain ⟨r, hr⟩ := h (.const v i)
    cases r <;> simp [findMatching, hr]
  · intro n x i p
    obtain ⟨r, hr⟩ := h (.var n x i)
    cases r <;> simp [findMatching, hr]
  · intro o cs i ih p
    obtain ⟨r, hr⟩ := h (.op o cs i)
    cases r with
    | some m => simp [findMatching, hr]
    | none =>
      obtain ⟨r', hr'⟩ := ih p 0
      exact ⟨r', by simp [findMatching, hr, hr']⟩
  · intro p k; exact ⟨_, rfl⟩
  · intro c cs h1 h2 p k
    obtain ⟨r, hr⟩ := h1 (p ++ [k])
    cases r with
    | some m => simp [findMatchings, hr]
    | none =>
      obtain ⟨r', hr'⟩ := h2 p (k + 1)
      exact ⟨r', by simp [findMatchings, hr, hr']⟩

/-! ## Definitions as rules -/

/-- The rule that `add_function` makes of a definition. -/
structure IsDef (r : RewriteRule V) (d : FunDef V) : Prop where
  accepted : ∃ cs tok, List.Forall₂ (fun c n => ∃ x i, c = Tree.var n x i) cs d.params ∧
    Accepted (.op d.op cs tok) [] d.body r
  nodup : d.params.Nodup

theorem names_vars {cs : List (Tree V)} {ps : List Str}
    (h : List.Forall₂ (fun c n => ∃ x i, c = Tree.var n x i) cs ps) : Tree.namesList cs = ps := by
  induction h with
  | nil => rfl
  | cons h1 _ ih =>
    obtain ⟨x, i, rfl⟩ := h1
    simp [Tree.namesList, Tree.names, ih]

theorem addNew_self {vs ps : List Str} (h : (vs ++ ps).Nodup) : addNew vs ps = vs ++ ps := by
  induction ps generalizing vs with
  | nil => simp [addNew]
  | cons p ps ih =>
    have hp : p ∉ vs := by
      intro hp
      rw [List.nodup_append] at h
      exact h.2.2 p hp p (by simp) rfl
    simp only [addNew, hp, if_false]
    rw [ih (by simpa using h)]
    simp

theorem plain_of {cs : List (Tree V)} {ps W : List Str} {k : Nat}
    (h : List.Forall₂ (fun c n => ∃ x i, c = Tree.var n x i) cs ps) (hW : W.Nodup)
    (hd : W.drop k = ps) (hl : ∀ n ∈ ps, ¬ ListName n) :
    PlainVars k (Tree.withIdsList W.idxOf cs) := by
  induction h generalizing k with
  | nil => trivial
  | @cons c n cs ps h1 _ ih =>
    obtain ⟨x, i, rfl⟩ := h1
    have hk : k < W.length := by
      by_contra hk
      rw [List.drop_eq_nil_of_le (by omega)] at hd
      cases hd
    rw [List.drop_eq_getElem_cons hk] at hd
    simp only [List.cons.injEq] at hd
    obtain ⟨rfl, hd⟩ := hd
    refine ⟨⟨W[k], i, ?_, ?_⟩, ih hd fun n hn => hl n (by simp [hn])⟩
    · simp only [Tree.withIds, Tree.var.injEq, true_and, and_true]
      exact List.Nodup.idxOf_getElem hW k hk
    · have := hl W[k] (by simp)
      rw [← isListName_iff] at this
      simpa using this

/-- Left side and right side of the rule of a definition. -/
theorem IsDef.shape {r : RewriteRule V} {d : FunDef V} (h : IsDef r d) :
    d.params.length ≤ maxMappedVars ∧ (∀ n ∈ d.body.names, n ∈ d.params) ∧
    r.after = d.body.withIds d.params.idxOf ∧
    ∃ ps tok, r.pattern = ⟨.op d.op ps tok, fun _ => []⟩ ∧ ps.length = d.params.length ∧
      ((∀ n ∈ d.params, ¬ ListName n) → PlainVars 0 ps) := by
  obtain ⟨cs, tok, h1, h2⟩ := h.accepted
  obtain ⟨-, h3, h4, h5⟩ := h2.spec
  have hn : (Tree.op d.op cs tok).names = d.params := by
    rw [Tree.names, names_vars h1]
  have hW : addNew [] d.params = d.params := addNew_self (by simpa using h.nodup)
  rw [hn, hW] at h3
  rw [hn, hW] at h4
  rw [hn] at h5
  refine ⟨h3.len, h5, h4, Tree.withIdsList d.params.idxOf cs, tok, ?_, ?_, ?_⟩
  · have ht := h3.tree
    have hc : r.pattern.constraints = fun _ => [] := by
      funext k
      rw [List.eq_nil_iff_forall_not_mem]
      intro c hc
      obtain ⟨d, hd, -⟩ := (h3.constr k c).1 hc
      cases hd
    cases hp : r.pattern with
    | mk t cons =>
      rw [hp] at ht hc
      simp only at ht hc
      rw [ht, hc]
      rfl
  · rw [withIdsList_eq, List.length_map, h1.length_eq]
  · exact plain_of h1 h.nodup (by simp)

mutual
/-- The body of a function with the arguments for the parameters. -/
def substCall (ps : List Str) (args : List (Tree V)) (k : Nat) : Tree V → Tree V
  | .const v _ => .const v k
  | .var n x _ => match (ps.zip args).lookup n with
    | some t => t
    | none => .var n x k
  | .op o cs _ => .op o (substCalls ps args k cs) k
def substCalls (ps : List Str) (args : List (Tree V)) (k : Nat) : List (Tree V) → List (Tree V)
  | [] => []
  | c :: cs => substCall ps args k c :: substCalls ps args k cs
end

theorem substCalls_eq (ps : List Str) (args : List (Tree V)) (k : Nat) (l : List (Tree V)) :
    substCalls ps args k l = l.map (substCall ps args k) := by
  induction l with
  | nil => rfl
  | cons c l ih => simp [substCalls, ih]

theorem lookup_zip {ps : List Str} {args : List (Tree V)} (hl : ps.length = args.length) (n : Str)
    (hn : n ∈ ps) : ∃ t, (ps.zip args).lookup n = some t ∧ args[ps.idxOf n]? = some t := by
  induction ps generalizing args with
  | nil => cases hn
  | cons p ps ih =>
    cases args with
    | nil => cases hl
    | cons a args =>
      by_cases he : n = p
      · subst he
        exact ⟨a, by simp, by simp⟩
      · obtain ⟨t, h1, h2⟩ := ih (by simpa using hl) (by simpa [he] using hn)
        have he' : (n == p) = false := by simpa using he
        refine ⟨t, by simp [List.lookup, he', h1], ?_⟩
        rw [List.idxOf_cons_ne _ (fun e => he e.symm)]
        simpa using h2

theorem substCall_inst {d : FunDef V} {args : List (Tree V)} (hl : d.params.length = args.length) (k : Nat)
    (t : Tree V) (hn : ∀ n ∈ t.names, n ∈ d.params) :
    Inst (d.assign args) (fun _ => k) t [substCall d.params args k t] := by
  induction t using Tree.induct with
  | hc v i => exact .const
  | hv n x i =>
    obtain ⟨t, h1, -⟩ := lookup_zip hl n (hn n (by simp [Tree.names]))
    have h2 : d.assign args n = some [t] := by simp [FunDef.assign, h1]
    simp only [substCall, h1]
    exact .var h2
  | ho o cs i ih =>
    have key : Inst (d.assign args) (fun _ => k) (.op o cs i)
        [.op o ((cs.map fun c => [substCall d.params args k c]).flatten) k] :=
      .op (by simp) fun j hj => by
        simp only [List.getElem_map]
        exact ih _ (List.getElem_mem _) fun n h => hn n (by
          rw [Tree.names]
          exact namesList_mem.2 ⟨_, List.getElem_mem hj, h⟩)
    have e : (cs.map fun c => [substCall d.params args k c]).flatten = cs.map (substCall d.params args k) := by
      clear key ih hn
      induction cs with
      | nil => rfl
      | cons c cs ih => simpa using ih
    rw [e] at key
    simp only [substCall, substCalls_eq]
    exact key

theorem transform_call {d : FunDef V} {args : List (Tree V)} (hl : d.params.length = args.length)
    (hlen : d.params.length ≤ maxMappedVars) (k : Nat) (t : Tree V) (hn : ∀ n ∈ t.names, n ∈ d.params) :
    transformByMatching (callMatching args) (setTokAll k (treeCopy (t.withIds d.params.idxOf)))
      = .ok (substCall d.params args k t) := by
  rw [treeCopy_eq, setTokAll_eq]
  have hv : ∀ x ∈ ((t.withIds d.params.idxOf).withTok fun _ => k).vars, x.2 < maxMappedVars := by
    rw [withTok_vars, withIds_vars]
    intro x hx
    obtain ⟨n, hn', rfl⟩ := List.mem_map.1 hx
    have := List.idxOf_lt_length_of_mem (hn n hn')
    simp only
    omega
  rw [transformByMatching_iff _ _ _ hv]
  refine ((inst_iff (σ := d.assign args) (fun _ => k) t ?_ _).1 (substCall_inst hl k t hn)).symm
  intro n hn'
  obtain ⟨u, h1, h2⟩ := lookup_zip hl n (hn n hn')
  simp [FunDef.assign, h1, Matching.get, callMatching, h2]

/-- One application of the rule of a definition. -/
theorem applyRule_def {r : RewriteRule V} {d : FunDef V} (h : IsDef r d)
    (hp : ∀ n ∈ d.params, ¬ ListName n) (eqV : V → V → Bool) (checker : Tree V → Bool) (t : Tree V) :
    (applyRule eqV checker r t = .ok none ∧
      ∀ x ∈ t.preorder [], ∀ q ts i, x.2 = .op q ts i → ¬ (d.op.id = q.id ∧ d.params.length = ts.length)) ∨
    ∃ p q ts i t', applyRule eqV checker r t = .ok (some t') ∧ d.op.id = q.id ∧
      d.params.length = ts.length ∧ Replaced t p (.op q ts i) (substCall d.params ts i d.body) t' := by
  obtain ⟨h1, h2, h3, ps, tok, h4, h5, h6⟩ := h.shape
  have hm := match_call (i := tok) (o := d.op) (h6 hp) (by omega) eqV checker
  obtain ⟨f, hf⟩ := findMatching_isOk (pat := r.pattern) (eqV := eqV) (checker := checker)
    (fun s => ⟨_, by rw [h4]; exact hm s⟩) t []
  have hs := findMatching_spec _ _ _ _ _ _ hf
  cases f with
  | none =>
    left
    constructor
    · simp [applyRule, hf]
    · intro x hx q ts i hxe
      have := hs x hx
      rw [h4, hm, hxe] at this
      simp only [Res.ok.injEq, ite_eq_right_iff, reduceCtorEq, imp_false, h5] at this
      exact this
  | some y =>
    right
    obtain ⟨p, m⟩ := y
    obtain ⟨pre, s, post, e1, -, e2⟩ := hs
    rw [h4, hm] at e2
    cases s with
    | const v i => simp at e2
    | var n x i => simp at e2
    | op q ts i =>
      simp only [Res.ok.injEq, h5] at e2
      split at e2
      · rename_i hc
        cases e2
        have hmem : (p, Tree.op q ts i) ∈ t.preorder [] := by rw [e1]; simp
        obtain ⟨q', hq', hd⟩ := (mem_preorder t [] p _).1 hmem
        simp only [List.nil_append] at hq'
        subst hq'
        refine ⟨p, q, ts, i, t.replaceAt p (substCall d.params ts i d.body), ?_, hc.1, hc.2, ?_⟩
        · unfold applyRule
          rw [hf]
          simp only [Res.bind_ok, hd, Tree.tok, h3]
          rw [transform_call hc.2 h1 i d.body h2]
          rfl
        · exact replaceAt_spec t p _ _ hd
      · cases e2

/-! ## The expanded expression -/

mutual
/-- All calls expanded. -/
def expandD (D : List (FunDef V)) : Tree V → Tree V
  | .const v i => .const v i
  | .var n x i => .var n x i
  | .op o cs i => match D.find? fun d => decide (d.op = o) with
    | some d => substCall d.params (expandDs D cs) i d.body
    | none => .op o (expandDs D cs) i
def expandDs (D : List (FunDef V)) : List (Tree V) → List (Tree V)
  | [] => []
  | c :: cs => expandD D c :: expandDs D cs
end

theorem expandDs_eq (D : List (FunDef V)) (l : List (Tree V)) : expandDs D l = l.map (expandD D) := by
  induction l with
  | nil => rfl
  | cons c l ih => simp [expandDs, ih]

/-- A table of definitions as it arises in a session. -/
structure Table (D : List (FunDef V)) : Prop where
  ids : (D.map (·.op.id)).Nodup
  user : ∀ d ∈ D, 58 ≤ d.op.id
  bodies : ∀ d ∈ D, AllOps BuiltIn d.body
  closed : ∀ d ∈ D, ∀ n ∈ d.body.names, n ∈ d.params
  plain : ∀ d ∈ D, ∀ n ∈ d.params, ¬ ListName n

/-- The operators are built in or functions of the table. -/
def Known (D : List (FunDef V)) (o : Op) (n : Nat) : Prop :=
  BuiltIn o n ∨ ∃ d ∈ D, d.op = o ∧ d.params.length = n

theorem Table.find {D : List (FunDef V)} (h : Table D) {d : FunDef V} (hd : d ∈ D) :
    D.find? (fun e => decide (e.op = d.op)) = some d := by
  cases hf : D.find? fun e => decide (e.op = d.op) with
  | none =>
    have := List.find?_eq_none.mp hf d hd
    simp at this
  | some e =>
    have h1 := List.find?_some hf
    simp only [decide_eq_true_eq] at h1
    have h2 := List.mem_of_find?_eq_some hf
    rw [List.inj_on_of_nodup_map h.ids h2 hd (by rw [h1])]

theorem BuiltIn.id {o : Op} {n : Nat} (h : BuiltIn o n) : o.id < 58 := by
  obtain ⟨⟨q, hq, -⟩, -⟩ := h
  have hl : arithOps.length = 58 := by decide
  by_contra hc
  rw [List.getElem?_eq_none (by omega)] at hq
  cases hq

theorem Table.find_none {D : List (FunDef V)} (h : Table D) {o : Op} {n : Nat} (ho : BuiltIn o n) :
    D.find? (fun e => decide (e.op = o)) = none := by
  rw [List.find?_eq_none]
  intro d hd
  have := h.user d hd
  simp only [decide_eq_true_eq]
  rintro rfl
  have := ho.id
  omega

theorem AllOps.child {P : Op → Nat → Prop} {o : Op} {cs : List (Tree V)} {i : Nat}
    (h : AllOps P (.op o cs i)) : P o cs.length ∧ ∀ c ∈ cs, AllOps P c := by
  cases h with
  | op h1 h2 => exact ⟨h1, h2⟩

theorem AllOps.mono {P Q : Op → Nat → Prop} (hPQ : ∀ o n, P o n → Q o n) {t : Tree V} (h : AllOps P t) :
    AllOps Q t := by
  induction h with
  | const => exact .const
  | var => exact .var
  | op h1 _ ih => exact .op (hPQ _ _ h1) ih

theorem lookup_zip_map {α β : Type} (f : α → β) (ps : List Str) (args : List α) (n : Str) :
    (ps.zip (args.map f)).lookup n = ((ps.zip args).lookup n).map f := by
  induction ps generalizing args with
  | nil => rfl
  | cons p ps ih =>
    cases args with
    | nil => rfl
    | cons a args =>
      simp only [List.map_cons, List.zip_cons_cons, List.lookup]
      cases n == p <;> simp [ih]

/-- Expanding an instance of a body. -/
theorem expandD_subst {D : List (FunDef V)} (h : Table D) (ps : List Str) (args : List (Tree V)) (k : Nat)
    (t : Tree V) (ht : AllOps BuiltIn t) :
    expandD D (substCall ps args k t) = substCall ps (args.map (expandD D)) k t := by
  induction t using Tree.induct with
  | hc v i => simp [substCall, expandD]
  | hv n x i =>
    simp only [substCall, lookup_zip_map]
    cases (ps.zip args).lookup n <;> simp [expandD]
  | ho o cs i ih =>
    obtain ⟨h1, h2⟩ := ht.child
    simp only [substCall, expandD, h.find_none h1, substCalls_eq, expandDs_eq, List.map_map]
    congr 1
    refine List.map_congr_left fun c hc => ?_
    exact ih c hc (h2 c hc)

theorem expandD_replaced {D : List (FunDef V)} {t t' s w : Tree V} {p : List Nat}
    (h : Replaced t p s w t') (he : expandD D s = expandD D w) : expandD D t = expandD D t' := by
  induction h with
  | here => exact he
  | child _ ih =>
    simp only [expandD, expandDs_eq, List.map_append, List.map_cons, ih he]

mutual
/-- Bound for the number of steps. -/
def stepBound (D : List (FunDef V)) : Tree V → Nat
  | .const _ _ => 0
  | .var _ _ _ => 0
  | .op o cs _ => match D.find? fun d => decide (d.op = o) with
    | some d => 1 + (1 + d.body.names.length) * stepBounds D cs
    | none => stepBounds D cs
def stepBounds (D : List (FunDef V)) : List (Tree V) → Nat
  | [] => 0
  | c :: cs => stepBound D c + stepBounds D cs
end

theorem stepBounds_eq (D : List (FunDef V)) (l : List (Tree V)) :
    stepBounds D l = (l.map (stepBound D)).sum := by
  induction l with
  | nil => rfl
  | cons c l ih => simp [stepBounds, ih]

theorem lookup_bound (D : List (FunDef V)) (ps : List Str) (args : List (Tree V)) (n : Str) {t : Tree V}
    (h : (ps.zip args).lookup n = some t) : stepBound D t ≤ stepBounds D args := by
  induction ps generalizing args with
  | nil => simp at h
  | cons p ps ih =>
    cases args with
    | nil => simp at h
    | cons a args =>
      simp only [List.zip_cons_cons, List.lookup] at h
      simp only [stepBounds]
      split at h
      · cases h; omega
      · have := ih args h
        omega

theorem stepBound_subst {D : List (FunDef V)} (h : Table D) (ps : List Str) (args : List (Tree V)) (k : Nat)
    (t : Tree V) (ht : AllOps BuiltIn t) :
    stepBound D (substCall ps args k t) ≤ t.names.length * stepBounds D args := by
  revert ht
  refine Tree.rec
    (motive_1 := fun t => AllOps BuiltIn t →
      stepBound D (substCall ps args k t) ≤ t.names.length * stepBounds D args)
    (motive_2 := fun l => (∀ c ∈ l, AllOps BuiltIn c) →
      stepBounds D (substCalls ps args k l) ≤ (Tree.namesList l).length * stepBounds D args)
    ?_ ?_ ?_ ?_ ?_ t
  · intro v i _; simp [substCall, stepBound]
  · intro n x i _
    simp only [substCall, Tree.names, List.length_singleton, Nat.one_mul]
    cases hl : (ps.zip args).lookup n with
    | none => simp [stepBound]
    | some u => exact lookup_bound D ps args n hl
  · intro o cs i ih ht
    obtain ⟨h1, h2⟩ := ht.child
    simp only [substCall, stepBound, h.find_none h1, Tree.names]
    exact ih h2
  · intro _; simp [substCalls, stepBounds]
  · intro c cs h1 h2 ht
    simp only [substCalls, stepBounds, Tree.namesList, List.length_append, Nat.add_mul]
    exact Nat.add_le_add (h1 (ht c (by simp))) (h2 fun c hc => ht c (by simp [hc]))

theorem stepBounds_append (D : List (FunDef V)) (a b : List (Tree V)) :
    stepBounds D (a ++ b) = stepBounds D a + stepBounds D b := by
  simp [stepBounds_eq]

theorem stepBound_replaced {D : List (FunDef V)} {t t' s w : Tree V} {p : List Nat}
    (h : Replaced t p s w t') (he : stepBound D w < stepBound D s) : stepBound D t' < stepBound D t := by
  induction h with
  | here => exact he
  | @child o cs ds p s c c' u i _ ih =>
    have ih := ih he
    have hlt : stepBounds D (cs ++ c' :: ds) < stepBounds D (cs ++ c :: ds) := by
      simp only [stepBounds_append, stepBounds]
      omega
    simp only [stepBound]
    cases D.find? fun d => decide (d.op = o) with
    | none => exact hlt
    | some d =>
      simp only
      have := Nat.mul_lt_mul_of_pos_left hlt (show 0 < 1 + d.body.names.length by omega)
      omega

theorem AllOps.replaced {P : Op → Nat → Prop} {t t' s w : Tree V} {p : List Nat}
    (h : Replaced t p s w t') (ht : AllOps P t) (hw : AllOps P w) : AllOps P t' := by
  induction h with
  | here => exact hw
  | child _ ih =>
    obtain ⟨h1, h2⟩ := ht.child
    refine .op (by simpa using h1) ?_
    intro c hc
    rw [List.mem_append, List.mem_cons] at hc
    rcases hc with hc | rfl | hc
    · exact h2 c (by simp [hc])
    · exact ih (h2 _ (by simp)) hw
    · exact h2 c (by simp [hc])

theorem AllOps.sub {P : Op → Nat → Prop} {t t' s w : Tree V} {p : List Nat}
    (h : Replaced t p s w t') (ht : AllOps P t) : AllOps P s := by
  induction h with
  | here => exact ht
  | child _ ih => exact ih (ht.child.2 _ (by simp))

theorem AllOps.subst {P : Op → Nat → Prop} (ps : List Str) {args : List (Tree V)} (k : Nat) {t : Tree V}
    (ht : AllOps P t) (ha : ∀ a ∈ args, AllOps P a) : AllOps P (substCall ps args k t) := by
  induction ht with
  | const => exact .const
  | @var n x i =>
    simp only [substCall]
    cases hl : (ps.zip args).lookup n with
    | none => exact .var
    | some u =>
      refine ha u ?_
      clear ha
      induction ps generalizing args with
      | nil => simp at hl
      | cons p ps ih =>
        cases args with
        | nil => simp at hl
        | cons a args =>
          simp only [List.zip_cons_cons, List.lookup] at hl
          split at hl
          · cases hl; simp
          · exact List.mem_cons_of_mem _ (ih hl)
  | op h1 _ ih =>
    simp only [substCall, substCalls_eq]
    refine .op (by simpa using h1) ?_
    intro c hc
    obtain ⟨b, hb, rfl⟩ := List.mem_map.mp hc
    exact ih b hb

/-- One step of the expansion. -/
theorem expand_step {D : List (FunDef V)} {rules : List (RewriteRule V)} (h : Table D)
    (hr : List.Forall₂ IsDef rules D) (eqV : V → V → Bool) (checker : Tree V → Bool) (t : Tree V)
    (ht : AllOps (Known D) t) :
    (applyFirst eqV checker rules t = .ok none ∧ AllOps BuiltIn t) ∨
    ∃ t', applyFirst eqV checker rules t = .ok (some t') ∧ expandD D t = expandD D t' ∧
      stepBound D t' < stepBound D t ∧ AllOps (Known D) t' := by
  have key : ∀ (rs : List (RewriteRule V)) (E : List (FunDef V)), List.Forall₂ IsDef rs E → (∀ d ∈ E, d ∈ D) →
      (applyFirst eqV checker rs t = .ok none ∧ ∀ x ∈ t.preorder [], ∀ q ts i, x.2 = .op q ts i →
        ∀ d ∈ E, ¬ (d.op.id = q.id ∧ d.params.length = ts.length)) ∨
      ∃ t' d p q ts i, applyFirst eqV checker rs t = .ok (some t') ∧ d ∈ E ∧ d.op.id = q.id ∧
        d.params.length = ts.length ∧ Replaced t p (.op q ts i) (substCall d.params ts i d.body) t' := by
    intro rs E hE hsub
    induction hE with
    | nil => left; exact ⟨rfl, by simp⟩
    | @cons r d rs E hrd _ ih =>
      rcases applyRule_def hrd (h.plain d (hsub d (by simp))) eqV checker t with ⟨h1, h2⟩ | ⟨p, q, ts, i, t', h1, h2, h3, h4⟩
      · rcases ih fun d hd => hsub d (by simp [hd]) with ⟨h3, h4⟩ | ⟨t', e, p, q, ts, i, h3, h4, h5, h6, h7⟩
        · left
          refine ⟨by simp [applyFirst, h1, h3], ?_⟩
          intro x hx q ts i hxe e he
          rcases List.mem_cons.mp he with rfl | he
          · exact h2 x hx q ts i hxe
          · exact h4 x hx q ts i hxe e he
        · right
          exact ⟨t', e, p, q, ts, i, by simp [applyFirst, h1, h3], by simp [h4], h5, h6, h7⟩
      · right
        exact ⟨t', d, p, q, ts, i, by simp [applyFirst, h1], by simp, h2, h3, h4⟩
  rcases key rules D hr fun _ hd => hd with ⟨h1, h2⟩ | ⟨t', d, p, q, ts, i, h1, hd, h2, h3, h4⟩
  · left
    refine ⟨h1, ?_⟩
    have aux : ∀ (u : Tree V) p, AllOps (Known D) u → (∀ x ∈ u.preorder p, ∀ q ts i, x.2 = .op q ts i →
        ∀ d ∈ D, ¬ (d.op.id = q.id ∧ d.params.length = ts.length)) → AllOps BuiltIn u := by
      intro u
      refine Tree.rec
        (motive_1 := fun u => ∀ p, AllOps (Known D) u → (∀ x ∈ u.preorder p, ∀ q ts i, x.2 = .op q ts i →
          ∀ d ∈ D, ¬ (d.op.id = q.id ∧ d.params.length = ts.length)) → AllOps BuiltIn u)
        (motive_2 := fun l => ∀ p k, (∀ c ∈ l, AllOps (Known D) c) →
          (∀ x ∈ Tree.preorders p k l, ∀ q ts i, x.2 = .op q ts i →
          ∀ d ∈ D, ¬ (d.op.id = q.id ∧ d.params.length = ts.length)) → ∀ c ∈ l, AllOps BuiltIn c)
        ?_ ?_ ?_ ?_ ?_ u
      · intros; exact .const
      · intros; exact .var
      · intro o cs i ih p hk hx
        obtain ⟨k1, k2⟩ := hk.child
        simp only [Tree.preorder, List.mem_cons, forall_eq_or_imp] at hx
        refine .op ?_ (ih p 0 k2 hx.2)
        rcases k1 with k1 | ⟨d, hd, rfl, hl⟩
        · exact k1
        · exact absurd ⟨rfl, hl⟩ (hx.1 _ _ _ rfl d hd)
      · intro p k _ _ c hc; cases hc
      · intro c cs i1 i2 p k hk hx b hb
        simp only [Tree.preorders, List.mem_append] at hx
        rcases List.mem_cons.mp hb with rfl | hb
        · exact i1 _ (hk _ (by simp)) fun x hx' => hx x (.inl hx')
        · exact i2 _ _ (fun c hc => hk c (by simp [hc])) (fun x hx' => hx x (.inr hx')) b hb
    exact aux t [] ht h2
  · right
    have hs := AllOps.sub h4 ht
    obtain ⟨k1, k2⟩ := hs.child
    have hq : d.op = q := by
      rcases k1 with k1 | ⟨e, he, rfl, -⟩
      · have := h.user d hd; have := k1.id; omega
      · rw [List.inj_on_of_nodup_map h.ids hd he h2]
    subst hq
    have hf := h.find hd
    refine ⟨t', h1, ?_, ?_, ?_⟩
    · refine expandD_replaced h4 ?_
      rw [expandD_subst h _ _ _ _ (h.bodies d hd)]
      simp only [expandD, hf, expandDs_eq]
    · refine stepBound_replaced h4 ?_
      have := stepBound_subst h d.params ts i d.body (h.bodies d hd)
      simp only [stepBound, hf, Nat.add_mul, Nat.one_mul]
      omega
    · refine AllOps.replaced h4 ht (AllOps.subst _ _ ?_ k2)
      exact (h.bodies d hd).mono fun o n ho => .inl ho

theorem expandD_id {D : List (FunDef V)} (h : Table D) (t : Tree V) (ht : AllOps BuiltIn t) :
    expandD D t = t := by
  induction t using Tree.induct with
  | hc v i => rfl
  | hv n x i => rfl
  | ho o cs i ih =>
    obtain ⟨h1, h2⟩ := ht.child
    simp only [expandD, h.find_none h1, expandDs_eq]
    congr 1
    conv => rhs; rw [← List.map_id cs]
    exact List.map_congr_left fun c hc => ih c hc (h2 c hc)

/-- Expanding with enough fuel. -/
theorem expand_loop {D : List (FunDef V)} {rules : List (RewriteRule V)} (h : Table D)
    (hr : List.Forall₂ IsDef rules D) (eqV : V → V → Bool) (checker : Tree V → Bool) (cap : Nat) :
    ∀ (fuel counter : Nat) (t : Tree V), AllOps (Known D) t → stepBound D t < fuel →
      counter + stepBound D t < cap →
      ∃ n, applyLoop eqV checker rules cap fuel counter t = .ok (some (expandD D t, n)) ∧
        AllOps BuiltIn (expandD D t) := by
  intro fuel
  induction fuel with
  | zero => intro counter t _ h1; omega
  | succ fuel ih =>
    intro counter t ht h1 h2
    rcases expand_step h hr eqV checker t ht with ⟨h3, h4⟩ | ⟨t', h3, h4, h5, h6⟩
    · rw [expandD_id h t h4]
      exact ⟨counter, by simp [applyLoop, h3], h4⟩
    · obtain ⟨n, h7, h8⟩ := ih (counter + 1) t' h6 (by omega) (by omega)
      rw [h4]
      refine ⟨n, ?_, h8⟩
      simp only [applyLoop, h3, Res.bind_ok]
      rw [if_neg (by omega), h7]

/-- `expandD` is the specified expansion. -/
theorem expandD_spec {D : List (FunDef V)} (h : Table D) (t : Tree V) (ht : AllOps (Known D) t) :
    Expanded D t (expandD D t) := by
  induction t using Tree.induct with
  | hc v i => exact .const
  | hv n x i => exact .var
  | ho o cs i ih =>
    obtain ⟨h1, h2⟩ := ht.child
    have hk : ∀ k (hk : k < cs.length), Expanded D cs[k] ((cs.map (expandD D))[k]'(by simpa using hk)) := by
      intro k hk
      rw [List.getElem_map]
      exact ih _ (List.getElem_mem _) (h2 _ (List.getElem_mem _))
    rcases h1 with h1 | ⟨d, hd, rfl, hl⟩
    · simp only [expandD, h.find_none h1, expandDs_eq]
      refine .op (by simp) ?_ hk
      rintro d hd rfl
      have := h.user d hd
      have := h1.id
      omega
    · simp only [expandD, h.find hd, expandDs_eq]
      refine .call (ds := cs.map (expandD D)) (by simp) hd hl.symm hk ?_
      exact substCall_inst (by simpa using hl) i d.body (h.closed d hd)

end Verif
