import Verif.Lemmas.OperatorMemory

/-!
# Operators of trees that stay, with parameters that are lists

A call with as many arguments as there are parameters matches its rule also if parameters are lists: among the ways to
distribute the arguments is the one that gives one to each.  Operators may then get another number of operands, so
nothing is said about it.
-/

namespace Verif
open ParserProps TreeProps MatchProps RewriteProps OperatorSpec
variable {V ε ρ : Type}

/-- Variables with the numbers from `k` on. -/
def AnyVars : Nat → List (Tree V) → Prop
  | _, [] => True
  | k, c :: cs => (∃ n i, c = .var n k i) ∧ AnyVars (k + 1) cs

theorem any_of {cs : List (Tree V)} {ps W : List Str} {k : Nat}
    (h : List.Forall₂ (fun c n => ∃ x i, c = Tree.var n x i) cs ps) (hW : W.Nodup)
    (hd : W.drop k = ps) : AnyVars k (Tree.withIdsList W.idxOf cs) := by
  induction h generalizing k with
  | nil => trivial
  | @cons c n cs ps h1 _ ih =>
    obtain ⟨x, i, rfl⟩ := h1
    have hk : k < W.length := by
      by_contra hk
      rw [List.drop_eq_nil_of_le (by omega)] at hd
      cases hd
    rw [List.drop_eq_getElem_cons hk] at hd
    simp only [List.cons.injEq] at hd
    obtain ⟨rfl, hd⟩ := hd
    refine ⟨⟨W[k], i, ?_⟩, ih hd⟩
    simp only [Tree.withIds, Tree.var.injEq, true_and, and_true]
    exact List.Nodup.idxOf_getElem hW k hk

theorem flatMap_mem {α β : Type} {f : α → Res (List β)} : ∀ {l : List α} {ys : List β}, Res.flatMap f l = .ok ys →
    ∀ x ∈ l, ∃ zs, f x = .ok zs ∧ ∀ z ∈ zs, z ∈ ys := by
  intro l
  induction l with
  | nil => intro ys _ x hx; cases hx
  | cons a l ih =>
    intro ys h x hx
    simp only [Res.flatMap] at h
    obtain ⟨z1, h1, h⟩ := Res.bind_eq_ok.1 h
    obtain ⟨z2, h2, h⟩ := Res.bind_eq_ok.1 h
    cases h
    rcases List.mem_cons.1 hx with rfl | hx
    · exact ⟨z1, h1, fun z hz => List.mem_append_left _ hz⟩
    · obtain ⟨zs, g1, g2⟩ := ih h2 x hx
      exact ⟨zs, g1, fun z hz => List.mem_append_right _ (g2 z hz)⟩

/-- One of the ways to distribute is one argument for each. -/
theorem suffixLevels_each {n : Nat} (ps : List (Tree V)) : ∀ (k s : Nat) (path : List (Nat × Nat))
    (nodes L : List (List (Nat × Nat) × Nat)), AnyVars k ps → s + ps.length = n → (path, s) ∈ nodes →
    suffixLevels Matching.empty n ps nodes = .ok L → (path ++ plainPath s ps.length, s + ps.length) ∈ L := by
  induction ps with
  | nil =>
    intro k s path nodes L _ _ hm h
    cases h
    simpa [plainPath] using hm
  | cons p ps ih =>
    intro k s path nodes L hv hs hm h
    obtain ⟨⟨nm, i, rfl⟩, hv⟩ := hv
    simp only [suffixLevels] at h
    obtain ⟨nodes', h1, h⟩ := Res.bind_eq_ok.1 h
    obtain ⟨zs, g1, g2⟩ := flatMap_mem h1 _ hm
    obtain ⟨ext, g3, g4⟩ := Res.bind_eq_ok.1 g1
    cases g4
    simp only [List.length_cons] at hs
    have hin : (1, s + 1) ∈ ext := by
      unfold suffixExtend at g3
      split at g3
      · split at g3
        · simp only [Matching.empty] at g3
          split at g3
          · next he => 
            have : ps = [] := by simpa using he
            subst this
            simp only [List.length_nil] at hs
            rw [if_pos (by omega)] at g3
            cases g3
            simp only [List.mem_singleton, Prod.mk.injEq]
            omega
          · next he =>
            rw [if_pos (by omega)] at g3
            cases g3
            exact List.mem_map.2 ⟨1, List.mem_range.2 (by omega), rfl⟩
        · cases g3
      · rw [if_pos (by omega)] at g3
        cases g3
        simp
    have := ih (k + 1) (s + 1) (path ++ [(s, 1)]) nodes' L hv (by omega)
      (g2 _ (List.mem_map.2 ⟨(1, s + 1), hin, rfl⟩)) h
    simp only [List.length_cons, plainPath]
    rw [List.append_assoc, List.singleton_append] at this
    have e : s + 1 + ps.length = s + (ps.length + 1) := by omega
    rwa [e] at this

theorem fillSuffix_each (ctx : MatchCtx V) (hc : ∀ id, ctx.constraints id = []) (ts : List (Tree V))
    (ps : List (Tree V)) : ∀ k s (m : Matching V), AnyVars k ps → k + ps.length ≤ maxMappedVars →
    s + ps.length ≤ ts.length → (∀ id, k ≤ id → m id = none) →
    ∃ m', fillSuffix ctx ps (plainPath s ps.length) ts [m] = .ok [m'] := by
  induction ps with
  | nil =>
    intro k s m _ _ _ _
    exact ⟨m, rfl⟩
  | cons p ps ih =>
    intro k s m h hk hs hm
    obtain ⟨⟨nm, i, rfl⟩, h⟩ := h
    simp only [List.length_cons] at hk hs
    have hlen : 1 ≤ (ts.drop s).length := by rw [List.length_drop]; omega
    obtain ⟨m', h1⟩ := ih (k + 1) (s + 1) (m.bind k ((ts.drop s).take 1)) h (by omega) (by omega)
      (by
        intro id hid
        simp only [Matching.bind]
        rw [if_neg (by omega)]
        exact hm id (by omega))
    refine ⟨m', ?_⟩
    simp only [List.length_cons, plainPath, fillSuffix, Res.flatMap, extendMatching, hm k (Nat.le_refl _),
      if_pos hlen, hc, checkConstraints, Res.bind_ok, Res.pure_eq]
    rw [if_pos (by omega)]
    simpa using h1

/-- A call with the right number of arguments matches, whatever the parameters are. -/
theorem match_any {o q : Op} {ps ts : List (Tree V)} {i j : Nat} (hp : AnyVars 0 ps)
    (hlen : ps.length ≤ maxMappedVars) (hid : o.id = q.id) (hl : ps.length = ts.length) (eqV : V → V → Bool)
    (checker : Tree V → Bool) : getMatching eqV checker ⟨.op o ps i, fun _ => []⟩ (.op q ts j) ≠ .ok none := by
  intro h
  unfold getMatching getAllMatchings at h
  obtain ⟨ms, h, h'⟩ := Res.bind_eq_ok.1 h
  simp only [Res.pure_eq, Res.ok.injEq, List.head?_eq_none_iff] at h'
  subst h'
  simp only [extendMatching, if_true, if_pos hid] at h
  obtain ⟨L, h1, h⟩ := Res.bind_eq_ok.1 h
  have hm := suffixLevels_each ps 0 0 [] [([], 0)] L hp (by omega) (by simp) h1
  obtain ⟨zs, g1, g2⟩ := flatMap_mem h _ (List.mem_filter.2 ⟨hm, by simp [hl]⟩)
  obtain ⟨m', h2⟩ := fillSuffix_each (⟨eqV, fun _ => [], checker⟩ : MatchCtx V) (fun _ => rfl) ts ps 0 0
    Matching.empty hp (by omega) (by omega) (fun _ _ => rfl)
  simp only [List.nil_append] at g1
  rw [h2] at g1
  cases g1
  exact absurd (g2 m' (by simp)) (by simp)

theorem IsDef.anyVars {r : RewriteRule V} {d : FunDef V} (h : IsDef r d) :
    ∃ ps tok, r.pattern = ⟨.op d.op ps tok, fun _ => []⟩ ∧ ps.length = d.params.length ∧ AnyVars 0 ps := by
  obtain ⟨cs, tok, h1, h2⟩ := h.accepted
  obtain ⟨-, h3, -, -⟩ := h2.spec
  have hn : (Tree.op d.op cs tok).names = d.params := by
    rw [Tree.names, names_vars h1]
  have hW : addNew [] d.params = d.params := addNew_self (by simpa using h.nodup)
  rw [hn, hW] at h3
  obtain ⟨-, -, -, ps, tok', g1, g2, -⟩ := h.shape
  refine ⟨ps, tok', g1, g2, ?_⟩
  have ht := h3.tree
  rw [g1] at ht
  simp only [Tree.withIds, Tree.op.injEq] at ht
  rw [ht.2.1]
  exact any_of h1 h.nodup (by simp)

/-- A built-in operator, with any number of operands. -/
def AnyBuilt (o : Op) (_ : Nat) : Prop := ∃ q, arithOps[o.id]? = some q ∧ o = { q with id := o.id }

/-- Built-in operators, and functions with as many arguments as they have parameters. -/
def KnownAny (D : List (FunDef V)) (o : Op) (n : Nat) : Prop :=
  AnyBuilt o n ∨ ∃ d ∈ D, d.op = o ∧ d.params.length = n

/-- `simplify` adds no user functions, whatever the number of operands. -/
def SimpStays (K : Client V ε ρ) : Prop :=
  ∀ w h t w' u, Verif.AllOps AnyBuilt t → K.simp w h t = .ok (w', .ok u) → Verif.AllOps AnyBuilt u

theorem AnyBuilt.alive {c : Ctx} {us : List Op} (h : Holds c us) {o : Op} {n : Nat} (ho : AnyBuilt o n) : Alive c o := by
  obtain ⟨q, h1, h2⟩ := ho
  obtain ⟨as, -, h3⟩ := h.ops
  have : ∀ (k : Nat) (q : Op), arithOps[k]? = some q → ∃ a, (a, ({ q with id := k } : Op)) ∈ builtin := by
    intro k q hq
    refine ⟨k, ?_⟩
    unfold builtin
    exact List.mem_map.2 ⟨(q, k), List.mem_zipIdx_iff_getElem?.2 hq, rfl⟩
  obtain ⟨a, ha⟩ := this _ _ h1
  rw [← h2] at ha
  exact ⟨a, by rw [h3]; exact List.mem_append_left _ ha⟩

theorem built_any {O : Op → Nat → Prop} (hO : ∀ o n, AnyBuilt o n → ∀ k, O o k) {t : Tree V}
    (h : Verif.AllOps AnyBuilt t) : Built O t := by
  induction h with
  | const => exact .const
  | var => exact .var
  | op h _ ih => exact .op (.inl (hO _ _ h)) ih

theorem IsDef.good_any {D : List (FunDef V)} {r : RewriteRule V} {d : FunDef V} (h : IsDef r d)
    (hb : Verif.AllOps AnyBuilt d.body) : GoodRule (KnownAny D) r := by
  obtain ⟨cs, tok, -, h4⟩ := h.accepted
  refine ⟨_, _, _, h4, built_any (fun o n h k => .inl h) hb, ?_⟩
  intro n x i e
  cases e

/-- After expansion no user function is left. -/
theorem expand_any {D : List (FunDef V)} {rules : List (RewriteRule V)} (hD : ∀ d ∈ D, Verif.AllOps AnyBuilt d.body)
    (hr : List.Forall₂ IsDef rules D) {eqV : V → V → Bool} {checker : Tree V → Bool} {cap fuel : Nat} {t u : Tree V}
    {n : Nat} (ht : Verif.AllOps (KnownAny D) t) (hf : fuel < cap)
    (h : applyRuleset eqV checker rules cap fuel t = .ok (some (u, n))) : Verif.AllOps AnyBuilt u := by
  have hg : ∀ r ∈ rules, GoodRule (KnownAny D) r := by
    intro r hr'
    obtain ⟨d, hd, hrd⟩ := forall2_left hr hr'
    exact hrd.good_any (hD d hd)
  obtain ⟨h1, h2⟩ := loop_settled hg fuel 0 t u n ht (by omega) h
  refine ops_of_nodes u [] fun q o cs i hq => ?_
  rcases nodes_of_ops h1 [] q o cs i hq with hb | ⟨d, hd, rfl, hl⟩
  · exact hb
  · obtain ⟨r, hr', hrd⟩ := forall2_right hr hd
    have h3 := C29_not_applied eqV checker r u (h2 r hr') _ hq
    obtain ⟨g1, -⟩ := hrd.shape
    obtain ⟨ps, tok, g2, g3, g4⟩ := hrd.anyVars
    rw [g2] at h3
    exact absurd h3 (match_any g4 (by omega) rfl (by omega) eqV checker)

theorem arithSimplify_any {K : Client V ε ρ} (hK : SimpStays K) (hf : K.fuel < sizeMax) {D : List (FunDef V)}
    {funs : List (RewriteRule V)} (hD : ∀ d ∈ D, Verif.AllOps AnyBuilt d.body) (hr : List.Forall₂ IsDef funs D)
    {t u : Tree V} {w w' : ρ} {hist : List V} (hk : Verif.AllOps (KnownAny D) t)
    (he : arithSimplify K funs hist w t = .ok (w', some u)) : Verif.AllOps AnyBuilt u := by
  unfold arithSimplify at he
  obtain ⟨⟨t', n⟩, h1, he⟩ := Out.bind_eq_ok.1 he
  obtain ⟨⟨w2, r⟩, h2, he⟩ := Out.bind_eq_ok.1 he
  have h3 := expand_any hD hr hk hf (Out.ofFuel_ok h1)
  cases r with
  | error e => simp at he
  | ok v =>
    simp only [Out.pure_eq, Out.ok.injEq, Prod.mk.injEq, Option.some.injEq] at he
    obtain ⟨rfl, rfl⟩ := he
    exact hK _ _ _ _ _ h3 h2

theorem Known.any {D : List (FunDef V)} {o : Op} {n : Nat} (h : Known D o n) : KnownAny D o n :=
  h.imp (fun h => h.1) id

theorem define_any {K : Client V ε ρ} (hK : SimpStays K) (hf : K.fuel < sizeMax) {s s' : Session V ρ}
    {D : List (FunDef V)} {d : FunDef V} (h : Sess s D) (ht : ∀ d ∈ D, Verif.AllOps AnyBuilt d.body) {input : Str}
    (h' : Sess s' (D ++ [d])) (hd : DefinedBy K s s' D input d) : ∀ e ∈ D ++ [d], Verif.AllOps AnyBuilt e.body := by
  obtain ⟨k, -, -, -, rt, hrt, hno, hsimp⟩ := hd.text
  intro e he
  rcases List.mem_append.1 he with he | he
  · exact ht e he
  · simp only [List.mem_singleton] at he
    subst he
    have hk := parse_known h'.ctx h'.arity hrt
    have hk2 : Verif.AllOps (KnownAny D) rt := by
      refine (hk.and (findOpNode_none hno)).mono ?_
      rintro o n ⟨h1, h2⟩
      rcases h1 with h1 | ⟨e', he, rfl, hl⟩
      · exact .inl h1.1
      · rcases List.mem_append.mp he with he | he
        · exact .inr ⟨e', he, rfl, hl⟩
        · simp only [List.mem_singleton] at he
          subst he
          exact absurd rfl h2
    exact arithSimplify_any hK hf ht h.rules hk2 hsimp

/-- `simplify` keeps to built-in operators, whatever the number of their operands. -/
theorem Machine.simplify_any (M : Machine V ε) {s : Simp V} (hl : Loaded s) (hr : RulesFit s) {t u : Tree V}
    (ht : Verif.AllOps AnyBuilt t) (h : M.simplify s t = .ok (.ok u)) : Verif.AllOps AnyBuilt u := by
  have hneg : AnyBuilt negOp 1 := neg_builtIn.1
  have hs : ∀ o n, Simple o n → AnyBuilt o n := fun o n h => h.1.1
  unfold Machine.simplify at h
  rw [hl.init] at h
  simp only [Bool.not_true, Bool.false_eq_true, if_false] at h
  obtain ⟨t1, h1, h⟩ := Out.bind_eq_ok.1 h
  obtain ⟨x, hx, h⟩ := Out.bind_eq_ok.1 h
  have g1 := M.without_within hr hneg hs (reduceConst_within M.arith M.varErr (within_any ht) []) h1
  cases x with
  | error e => cases h
  | ok t2 =>
    have g2 : Within AnyBuilt (fun _ _ => True) (fun _ => True) t2 := by
      unfold Machine.applyDerivatives at hx
      rw [hl.before, hl.after, hl.malformed] at hx
      dsimp only at hx
      rcases M.shorthand_within (O := AnyBuilt) deriv_builtIn.1 (fun _ _ h => h) trivial M.fuel t1 g1 with
        e | ⟨v, e, hv, -⟩ | ⟨i, e, -⟩
      · rw [e] at hx; cases hx
      · rw [e] at hx
        simp only [Out.bind_ok] at hx
        obtain ⟨y, -, hx⟩ := Out.bind_eq_ok.1 hx
        cases y with
        | some q =>
          obtain ⟨i, -, hx⟩ := Out.bind_eq_ok.1 hx
          cases hx
        | none =>
          obtain ⟨v2, hv2, hx⟩ := Out.bind_eq_ok.1 hx
          have g3 : Within AnyBuilt (fun _ _ => True) (fun _ => True) v2 := by
            refine M.applySimplification_within (fun r hr' => (hr.good 1 r hr').mono fun o n ho => ?_) hneg hv2 hv
            rcases ho with ⟨g1, -⟩ | ⟨g1, -⟩
            · exact g1.1
            · omega
          simp only [derivTree, Tree.rootOp] at hx
          split at hx
          · obtain ⟨i, -, hx⟩ := Out.bind_eq_ok.1 hx
            cases hx
          · cases hx
            exact g3
      · rw [e] at hx; cases hx
    obtain ⟨t3, h3, h⟩ := Out.bind_eq_ok.1 h
    obtain ⟨y, hy, h⟩ := Out.bind_eq_ok.1 h
    have g3 := M.without_within hr hneg hs g2 h3
    have g4 := M.fold_within g3 hy
    cases y with
    | error e => cases h
    | ok t4 => cases h; exact (replaceNeg_within M.dbl hneg g4).ops

end Verif
