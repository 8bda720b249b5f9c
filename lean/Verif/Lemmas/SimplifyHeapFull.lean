import Verif.Lemmas.SimplifyHeapRules

/-!
# Lemmas on the simplification of a tree in memory
-/

namespace Verif
open OwnershipSpec MemorySpec
variable {V ε : Type}

section
variable (K : Machine V ε) (M : Malloc V) {F : Finder V} {y x : Nat}

/-! ## apply_simplification -/

theorem reduceConstants_live (l : Op → List V → Except ε V) (ve : ε) (hyx : y ≠ x) {g : Nat → Option (Cell V)}
    {vs : Nat → Option Nat} {t : Tree V} {m : Mem V} {S : List Nat} {deep : Nat} (h : Live g vs y x t m S)
    (hd : calls t < deep) :
    ∃ m' T, reduceConstants M l ve deep m (.var y) = .ok ((reduceConst l ve t []).2.map (·.1), m') ∧
      Live g vs y x (reduceConst l ve t []).1 m' T := by
  obtain ⟨m', T, e1, e2⟩ := reduceConstants_spec M l ve t h.at_ (Safe.nothing m _ S) hd
  exact ⟨m', T, e1, h.trade hyx e2⟩

theorem replaceNegAt_live (D : Doubles V) (hyx : y ≠ x) {g : Nat → Option (Cell V)}
    {vs : Nat → Option Nat} {t : Tree V} {m : Mem V} {S : List Nat} {deep : Nat} (h : Live g vs y x t m S)
    (hd : calls t < deep) :
    ∃ m' T, replaceNegAt M D deep m (.var y) = .ok (none, m') ∧ Live g vs y x (replaceNegConsts D t) m' T := by
  obtain ⟨m', T, e1, e2⟩ := replaceNegAt_spec M D t h.at_ (Safe.nothing m _ S) hd
  exact ⟨m', T, e1, h.trade hyx e2⟩

theorem applySimplificationAt_loop (hF : Finds K.dbl.eq F) (hyx : y ≠ x) {rules : List (RewriteRule V)} : ∀ {rounds : Nat} {t u : Tree V},
    simplifyLoop K.dbl K.checker K.arith K.varErr rules rounds t = .ok (some u) →
    ∃ n, ∀ deep ≥ n, ∀ g vs mrules, Stored g rules mrules → ∀ m S, Live g vs y x t m S →
      ∃ m' T, K.applySimplificationAt M F deep x mrules rounds m (.var y) = .ok m' ∧ Live g vs y x u m' T
  | 0, t, u, h => by simp [simplifyLoop] at h
  | rounds + 1, t, u, h => by
    simp only [simplifyLoop] at h
    obtain ⟨f, hf, h⟩ := Res.bind_eq_ok.1 h
    cases f with
    | none => cases h
    | some p =>
      obtain ⟨t', k⟩ := p
      obtain ⟨n1, h1⟩ := applyLoopAt_live M hF hyx hf
      cases k with
      | zero =>
        cases h
        refine ⟨n1 + calls t' + 1, fun deep hd g vs mrules hs m S hm => ?_⟩
        obtain ⟨m1, T1, e1, e2⟩ := h1 deep (by omega) g vs mrules hs m S hm
        obtain ⟨m2, T2, f1, f2⟩ := replaceNegAt_live M K.dbl hyx e2 (deep := deep) (by omega)
        exact ⟨m2, T2, by simp [Machine.applySimplificationAt, e1, f1], f2⟩
      | succ k =>
        obtain ⟨n2, h2⟩ := applySimplificationAt_loop hF hyx h
        refine ⟨n1 + calls t' + 1 + n2, fun deep hd g vs mrules hs m S hm => ?_⟩
        obtain ⟨m1, T1, e1, e2⟩ := h1 deep (by omega) g vs mrules hs m S hm
        obtain ⟨m2, T2, f1, f2⟩ := reduceConstants_live M K.arith K.varErr hyx e2 (deep := deep) (by omega)
        obtain ⟨m3, T3, g1, g2⟩ := h2 deep (by omega) g vs mrules hs m2 T2 f2
        exact ⟨m3, T3, by simp [Machine.applySimplificationAt, e1, f1, g1], g2⟩

theorem ofFuel_ok {α : Type} {r : Res (Option α)} {a : α} (h : Out.ofFuel r = .ok a) : r = .ok (some a) := by
  cases r with
  | ok o =>
    cases o with
    | none => cases h
    | some b => cases h; rfl
  | defect => cases h
  | ub => cases h

theorem applySimplificationAt_live (hF : Finds K.dbl.eq F) (hyx : y ≠ x) {rules : List (RewriteRule V)}
    {t u : Tree V} (h : K.applySimplification rules t = .ok u) :
    ∃ n, ∀ deep ≥ n, ∀ g vs mrules, Stored g rules mrules → ∀ m S, Live g vs y x t m S →
      ∃ m' T, K.applySimplificationAt M F deep x mrules K.fuel m (.var y) = .ok m' ∧ Live g vs y x u m' T :=
  applySimplificationAt_loop K M hF hyx (ofFuel_ok h)

theorem applyAllAt_live (hF : Finds K.dbl.eq F) (hyx : y ≠ x) {rulesets : Nat → List (RewriteRule V)} : ∀ {ks : List Nat} {t u : Tree V},
    K.applyAll rulesets ks t = .ok u →
    ∃ n, ∀ deep ≥ n, ∀ g vs mrules, (∀ k, Stored g (rulesets k) (mrules k)) → ∀ m S, Live g vs y x t m S →
      ∃ m' T, K.applyAllAt M F deep x mrules ks m (.var y) = .ok m' ∧ Live g vs y x u m' T
  | [], t, u, h => by
    cases h
    exact ⟨0, fun deep _ g vs mrules hs m S hm => ⟨m, S, rfl, hm⟩⟩
  | k :: ks, t, u, h => by
    simp only [Machine.applyAll] at h
    obtain ⟨t1, ht1, h⟩ := Out.bind_eq_ok.1 h
    obtain ⟨n1, h1⟩ := applySimplificationAt_live K M hF hyx ht1
    obtain ⟨n2, h2⟩ := applyAllAt_live hF hyx h
    refine ⟨n1 + n2, fun deep hd g vs mrules hs m S hm => ?_⟩
    obtain ⟨m1, T1, e1, e2⟩ := h1 deep (by omega) g vs _ (hs k) m S hm
    obtain ⟨m2, T2, f1, f2⟩ := h2 deep (by omega) g vs mrules hs m1 T1 e2
    exact ⟨m2, T2, by simp [Machine.applyAllAt, e1, f1], f2⟩

end

/-! ## A tree built in the variable `x` -/

/-- In `m'` there is, besides what is in `m`, the tree `u` in the variable `x`. -/
structure Beside (m : Mem V) (x : Nat) (u : Tree V) (m' : Mem V) (q : Nat) (T : List Nat) : Prop where
  holds : OwnershipSpec.Holds m'.get u q T
  nodup : T.Nodup
  new : ∀ a ∈ T, m.get a = none
  old : ∀ a, a ∉ T → m'.get a = m.get a
  vars : m'.vars = (m.setVar x (some q)).vars

theorem Beside.at_ {m m' : Mem V} {x q : Nat} {u : Tree V} {T : List Nat} (h : Beside m x u m' q T) :
    At m' (.var x) u T :=
  ⟨q, by simp [Mem.deref, h.vars, Mem.setVar], h.holds, h.nodup, fun a k e => by cases e⟩

theorem Beside.trade {m m1 m2 : Mem V} {x q : Nat} {u v : Tree V} {T U : List Nat} (h : Beside m x u m1 q T)
    (e : Trade m1 (.var x) T v U m2) : ∃ q', Beside m x v m2 q' U := by
  obtain ⟨q', e1, e2⟩ := e
  refine ⟨q', e1.holds, e1.nodup, fun a ha => ?_, fun a ha => ?_, ?_⟩
  · rcases e1.fresh a ha with h' | h'
    · exact h.new a h'
    · by_cases hT : a ∈ T
      · exact h.new a hT
      · rw [← h.old a hT]; exact h'
  · by_cases hT : a ∈ T
    · rw [e1.freed a hT ha, h.new a hT]
    · rw [e1.frame a hT ha, ← h.old a hT]; rfl
  · rw [e2, h.vars]
    funext z
    by_cases hz : z = x <;> simp [putVar, Mem.setVar, hz]

theorem Beside.deref {m m' : Mem V} {x q : Nat} {u : Tree V} {T : List Nat} (h : Beside m x u m' q T)
    {slot : Slot} {p : Option Nat} (e : m.deref slot = .ok p) (hx : slot ≠ .var x) : m'.deref slot = .ok p := by
  cases slot with
  | var z =>
    have hz : z ≠ x := fun e => hx (by rw [e])
    simpa [Mem.deref, h.vars, Mem.setVar, hz] using e
  | child a k =>
    obtain ⟨o, cs, i, h1, h2⟩ := Mem.deref_child e
    have : m'.get a = m.get a := h.old a fun hT => by rw [h.new a hT] at h1; cases h1
    simp [Mem.deref, Mem.child, this, h1, h2]

theorem Beside.other {m m' : Mem V} {x q : Nat} {u v : Tree V} {T R : List Nat} {r : Nat}
    (h : Beside m x u m' q T) (e : OwnershipSpec.Holds m.get v r R) : OwnershipSpec.Holds m'.get v r R :=
  e.congr fun a ha => h.old a fun hT => e.live a ha (h.new a hT)

/-- The tree built in `x` is put into the place of a part of the tree in `root`. -/
theorem Beside.replace {m m' : Mem V} {x q n : Nat} {u t s : Tree V} {T S : List Nat} {root matched : Slot}
    {path : Path} (h : Beside m x u m' q T) (hr : At m root t S) (hx : root ≠ .var x)
    (hd : t.deref path = some s) (hp : PlaceOf m root path matched) (hn : calls s ≤ n) :
    ∃ m'' T', replaceTree n m' matched (some q) = .ok m'' ∧
      Trade (m.setVar x (some q)) root S (t.replaceAt path u) T' m'' := by
  have hdL : ∀ (sl : Slot) (y : Option Nat), sl ≠ .var x → m.deref sl = .ok y →
      (m.setVar x (some q)).deref sl = .ok y := by
    intro sl y hne hy
    cases sl with
    | var z =>
      have hz : z ≠ x := fun e => hne (by rw [e])
      simpa [Mem.deref, Mem.setVar, hz] using hy
    | child a k => exact hy
  have hAtL : At (m.setVar x (some q)) root t S := by
    obtain ⟨p0, w1, w2, w3, w4⟩ := hr
    exact ⟨p0, hdL _ _ hx w1, w2, w3, w4⟩
  have hpL : PlaceOf (m.setVar x (some q)) root path matched := by
    have : ∀ (pa : Path) (sl : Slot), sl ≠ .var x → PlaceOf m sl pa matched →
        PlaceOf (m.setVar x (some q)) sl pa matched := by
      intro pa
      induction pa with
      | nil => intro sl _ h'; exact h'
      | cons k pa ih =>
        rintro sl hsl ⟨w, w1, w2⟩
        exact ⟨w, hdL _ _ hsl w1, ih _ (by simp) w2⟩
    exact this path root hx hp
  obtain ⟨S1, i1, i2, i3, i4⟩ := hAtL.path hd hpL
  obtain ⟨m'', j1, j2⟩ := replaceTree_new (fuel := n) i1 h.holds h.nodup h.new h.old h.vars hn
  obtain ⟨T', j3⟩ := i4 _ _ _ j2
  exact ⟨m'', T', j1, j3⟩

theorem copy_beside (M : Malloc V) {m : Mem V} {u : Tree V} {r x n : Nat} {R : List Nat}
    (h : OwnershipSpec.Holds m.get u r R) (hn : calls u ≤ n) :
    ∃ q mA T, copyTree M n m (some r) = .ok (some q, mA) ∧ Beside m x u (mA.setVar x (some q)) q T := by
  obtain ⟨q, mA, T, e1, e2, e3, e4, e5, e6⟩ := copyTree_spec M h hn
  exact ⟨q, mA, T, e1, e2, e3, e4, e5, by simp only [Mem.setVar, e6]⟩

/-! ## apply_derivatives -/

theorem Beside.child {m m' : Mem V} {x q : Nat} {o : Op} {ds ts : List (Tree V)} {c : Tree V} {i : Nat}
    {T : List Nat} (h : Beside m x (.op o (ds ++ c :: ts) i) m' q T) :
    ∃ S1, At m' (.child q ds.length) c S1 ∧ ∀ c' T1 m'', Trade m' (.child q ds.length) S1 c' T1 m'' →
      ∃ U, Beside m x (.op o (ds ++ c' :: ts) i) m'' q U := by
  obtain ⟨p, cs, S1, h1, h2, h3, h4, h5, h6⟩ := h.at_.child
  have hp : p = q := by
    have : m'.deref (.var x) = .ok (some q) := by simp [Mem.deref, h.vars, Mem.setVar]
    rw [h1] at this
    cases this
    rfl
  subst hp
  refine ⟨S1, h4, fun c' T1 m'' e => ?_⟩
  obtain ⟨U, e1⟩ := h6 c' T1 m'' e
  obtain ⟨q', hb⟩ := h.trade e1
  have hq : q' = p := by
    have h7 : m''.vars = m'.vars := by
      obtain ⟨_, _, e2⟩ := e
      exact e2
    have h8 : m''.vars x = some q' := by rw [hb.vars]; simp [Mem.setVar]
    rw [h7, h.vars] at h8
    simp [Mem.setVar] at h8
    exact h8.symm
  subst hq
  exact ⟨U, hb⟩

/-- The variable of a derivative. -/
def secondOf (c : Tree V) : List Str → Tree V
  | [] => c
  | v :: _ => .var v 0 0

theorem derivReplacementAt_spec (M : Malloc V) {m : Mem V} {o : Op} {c0 c1 s arg : Tree V} {i after pa pm x deep : Nat}
    {R X Y : List Nat} {matched argSlot : Slot} (vars : List Str)
    (ha : OwnershipSpec.Holds m.get (.op o [c0, c1] i) after R)
    (hm : m.deref matched = .ok (some pm)) (hs : OwnershipSpec.Holds m.get s pm Y) (hmx : matched ≠ .var x)
    (hg : m.deref argSlot = .ok (some pa)) (harg : OwnershipSpec.Holds m.get arg pa X) (hgx : argSlot ≠ .var x)
    (hd : calls (Tree.op o [c0, c1] i) + calls c0 + calls c1 + calls arg ≤ deep) :
    ∃ m' q T, Machine.derivReplacementAt M deep x after m matched vars argSlot = .ok m' ∧
      Beside m x (.op o [arg, secondOf c1 vars] s.tok) m' q T := by
  obtain ⟨q, mA, T0, a1, b1⟩ := copy_beside M (x := x) (n := deep) ha (by omega)
  generalize hm1 : mA.setVar x (some q) = m1 at b1
  obtain ⟨cell, k1, k2⟩ := Cell.tok_holds hs
  have d1 := b1.deref hm hmx
  have hpm : m1.get pm = some cell := by
    rw [b1.old pm (fun hT => by rw [b1.new pm hT] at k1; cases k1), k1]
  obtain ⟨ps, T, h1, h2, h3⟩ := b1.holds
  have hn := b1.nodup
  rw [h3, List.nodup_cons] at hn
  have hgp := Mem.get_put m1 h1 (.op o (ps.map some) s.tok)
  have b2 : Beside m x (.op o [c0, c1] s.tok) (m1.put q (.op o (ps.map some) s.tok)) q T0 := by
    refine ⟨⟨ps, T, by rw [hgp, if_pos rfl], ?_, h3⟩, b1.nodup, b1.new, ?_, b1.vars⟩
    · exact h2.congr fun a ha => by
        rw [hgp, if_neg (fun (e : a = q) => hn.1 (e ▸ ha))]
    · intro a ha
      rw [hgp, if_neg (fun (e : a = q) => ha (by rw [e, h3]; simp)), b1.old a ha]
  generalize hm2 : m1.put q (.op o (ps.map some) s.tok) = m2 at b2
  have step : ∃ m3 U, Machine.putVariableAt M deep q m2 vars = .ok m3 ∧
      Beside m x (.op o [c0, secondOf c1 vars] s.tok) m3 q U := by
    cases vars with
    | nil => exact ⟨m2, T0, rfl, b2⟩
    | cons v vs =>
      obtain ⟨S1, f1, f2⟩ := Beside.child (ds := [c0]) (c := c1) (ts := []) (by simpa using b2)
      obtain ⟨m3, e1, e2⟩ := replaceTree_new (mA := (m2.alloc M (.var v 0 0)).2) (u := .var v 0 0)
        (q := (m2.alloc M (.var v 0 0)).1) (T := [(m2.alloc M (.var v 0 0)).1]) (fuel := deep) f1
        ⟨by simp [Mem.get_alloc], rfl⟩ (by simp) (by simp [Mem.alloc_fresh])
        (fun a ha => by rw [Mem.get_alloc, if_neg (by simpa using ha)]) rfl (by omega)
      obtain ⟨U, f3⟩ := f2 _ _ _ e2
      exact ⟨m3, U, e1, by simpa [secondOf] using f3⟩
  obtain ⟨m3, U, s1, b3⟩ := step
  obtain ⟨S1, f1, f2⟩ := Beside.child (ds := []) (c := c0) (by simpa using b3)
  obtain ⟨a, mB, m4, T4, g1, g2, g3⟩ := copy_replace M (fuel := deep) (fuel' := deep) f1 (b3.other harg)
    (by omega) (by omega)
  obtain ⟨U', f3⟩ := f2 _ _ _ g3
  refine ⟨m4, q, U', ?_, by simpa using f3⟩
  have hasg : mA.assign (.var x) (some q) = .ok m1 := by rw [← hm1]; rfl
  have hl : m1.load (some pm) = .ok cell := by simp [Mem.load, hpm]
  simp only [Machine.derivReplacementAt, a1, Out.bind_ok, hasg, d1, hl, h1, k2, hm2, s1, b3.deref hg hgx, g1]
  exact g2

theorem deref_replaceAt {t s : Tree V} (u : Tree V) : ∀ {p : Path} {t : Tree V}, t.deref p = some s →
    (t.replaceAt p u).deref p = some u
  | [], t, _ => by cases t <;> cases u <;> rfl
  | k :: p, .op o cs i, h => by
    simp only [Tree.deref] at h
    cases hk : cs[k]? with
    | none => rw [hk] at h; simp at h
    | some c =>
      rw [hk] at h
      obtain ⟨hlt, _⟩ := List.getElem?_eq_some_iff.mp hk
      simp only [Tree.replaceAt, hk, Tree.deref, List.getElem?_set_self hlt]
      exact deref_replaceAt (t := t) u h
  | _ :: _, .const _ _, h => by simp [Tree.deref] at h
  | _ :: _, .var _ _ _, h => by simp [Tree.deref] at h

theorem replaceAt_twice {s : Tree V} (u v : Tree V) : ∀ {p : Path} {t : Tree V}, t.deref p = some s →
    (t.replaceAt p u).replaceAt p v = t.replaceAt p v
  | [], t, _ => by cases t <;> cases u <;> rfl
  | k :: p, .op o cs i, h => by
    simp only [Tree.deref] at h
    cases hk : cs[k]? with
    | none => rw [hk] at h; simp at h
    | some c =>
      rw [hk] at h
      obtain ⟨hlt, _⟩ := List.getElem?_eq_some_iff.mp hk
      simp only [Tree.replaceAt, hk, List.getElem?_set_self hlt, List.set_set, replaceAt_twice u v h]
  | _ :: _, .const _ _, h => by simp [Tree.deref] at h
  | _ :: _, .var _ _ _, h => by simp [Tree.deref] at h

theorem deref_withIds (f : Str → Nat) {s : Tree V} : ∀ {p : Path} {t : Tree V}, t.deref p = some s →
    (t.withIds f).deref p = some (s.withIds f)
  | [], t, h => by
    have : t = s := by cases t <;> simpa [Tree.deref] using h
    rw [this]
    cases s <;> rfl
  | k :: p, .op o cs i, h => by
    simp only [Tree.deref] at h
    cases hk : cs[k]? with
    | none => rw [hk] at h; simp at h
    | some c =>
      rw [hk] at h
      simp only [Tree.withIds, withIdsList_eq, Tree.deref, List.getElem?_map, hk, Option.map_some]
      exact deref_withIds f h
  | _ :: _, .const _ _, h => by simp [Tree.deref] at h
  | _ :: _, .var _ _ _, h => by simp [Tree.deref] at h

theorem deref_names {n : Str} {s : Tree V} : ∀ {p : Path} {t : Tree V}, t.deref p = some s → n ∈ s.names → n ∈ t.names
  | [], t, h, hn => by
    have : t = s := by cases t <;> simpa [Tree.deref] using h
    rwa [this]
  | k :: p, .op o cs i, h, hn => by
    simp only [Tree.deref] at h
    cases hk : cs[k]? with
    | none => rw [hk] at h; simp at h
    | some c =>
      rw [hk] at h
      exact namesList_mem.2 ⟨c, List.mem_of_getElem? hk, deref_names h hn⟩
  | _ :: _, .const _ _, h, _ => by simp [Tree.deref] at h
  | _ :: _, .var _ _ _, h, _ => by simp [Tree.deref] at h

theorem withIds_tok (f : Str → Nat) (t : Tree V) : (t.withIds f).tok = t.tok := by cases t <;> rfl

/-- The variables of a part are numbered like those of the whole if there is only one. -/
theorem listVariables_part {s arg : Tree V} {q : Path} (hq : s.deref q = some arg)
    (h : ¬ 1 < (listVariables 2 s).count) :
    ∃ f, (listVariables 2 s).tree = s.withIds f ∧ (listVariables 2 arg).tree = arg.withIds f := by
  rcases listVariables_two s with ⟨h1, _⟩ | ⟨_, h2, _, h4⟩
  · exact absurd h1 h
  refine ⟨_, h4, ?_⟩
  have key : ∀ n ∈ arg.names, addNew [] s.names = [n] := by
    intro n hn
    have hn' := deref_names hq hn
    have hm := ((TreeProps.addNew_first s.names).mem n).2 hn'
    match hA : addNew [] s.names, h2, hm with
    | [a], _, hm => simp at hm; rw [hm]
  rcases listVariables_two arg with ⟨_, h1⟩ | ⟨_, k2, _, k4⟩
  · obtain ⟨a, b, ha, hb, hab⟩ := two_of_addNew h1
    have := (key a ha).symm.trans (key b hb)
    simp at this
    exact absurd this hab
  · rw [k4]
    refine withIds_congr _ _ _ fun n hn => ?_
    have hm := ((TreeProps.addNew_first arg.names).mem n).2 hn
    rw [key n hn]
    match hA : addNew [] arg.names, k2, hm with
    | [a], _, hm => simp at hm; rw [hm]

theorem listVarsRec_tree (buf : Nat) (t : Tree V) : (listVarsRec buf t [] true).1 = (listVariables buf t).tree := by
  unfold listVariables
  rcases listVarsRec buf t [] true with ⟨t', vs, _ | _⟩ <;> rfl

theorem listVarsRec_vars (buf : Nat) (t : Tree V) : (listVarsRec buf t [] true).2.1 = (listVariables buf t).vars := by
  unfold listVariables
  rcases listVarsRec buf t [] true with ⟨t', vs, _ | _⟩ <;> rfl

theorem listVarsRec_count (buf : Nat) (t : Tree V) :
    (if (listVarsRec buf t [] true).2.2 then (listVarsRec buf t [] true).2.1.length else buf) =
      (listVariables buf t).count := by
  unfold listVariables
  rcases listVarsRec buf t [] true with ⟨t', vs, _ | _⟩ <;> rfl

theorem derivReplacement_ok {after arg r : Tree V} {vars : List Str} {tok : Nat}
    (h : Machine.derivReplacement after vars tok arg = .ok r) : ∃ o c0 c1 i, after = .op o [c0, c1] i ∧
      r = .op o [arg, secondOf c1 vars] tok := by
  simp only [Machine.derivReplacement, treeCopy_eq] at h
  split at h
  · rename_i o a b i
    refine ⟨_, _, _, _, rfl, ?_⟩
    cases vars <;> cases h <;> rfl
  · cases h

section
variable (K : Machine V ε) (M : Malloc V) {F : Finder V} {y x : Nat}

theorem shorthandAt_live (hF : Finds K.dbl.eq F) (hyx : y ≠ x) {before : Pattern V} {after : Tree V} : ∀ {rounds : Nat} {t : Tree V} {r : Except (SimpErr ε × Nat) (Tree V)},
    K.shorthandLoop before after rounds t = .ok r →
    ∃ n u, (∀ v, r = .ok v → u = v) ∧ ∀ deep ≥ n, ∀ g vs a R, OwnershipSpec.Holds g after a R →
      ∀ m S, Live g vs y x t m S →
      ∃ m' T, Machine.shorthandAt M F deep x before a rounds m (.var y) = .ok (errorOf r, m') ∧
        Live g vs y x u m' T
  | 0, t, r, h => by simp [Machine.shorthandLoop] at h
  | rounds + 1, t, r, h => by
    simp only [Machine.shorthandLoop] at h
    obtain ⟨f, hf, h⟩ := Out.bind_eq_ok.1 h
    have hf' : findMatching K.dbl.eq (fun _ => true) before t [] = .ok f := by
      cases hc : findMatching K.dbl.eq (fun _ => true) before t [] with
      | ok f' => rw [hc] at hf; cases hf; rfl
      | defect => rw [hc] at hf; cases hf
      | ub => rw [hc] at hf; cases hf
    cases f with
    | none =>
      cases h
      refine ⟨0, t, fun v e => (by cases e; rfl), fun deep _ g vs a R ha m S hm => ⟨m, S, ?_, hm⟩⟩
      simp [Machine.shorthandAt, (hF _ before m _ t S hm.at_).1 hf', errorOf]
    | some pm =>
      obtain ⟨path, mt⟩ := pm
      simp only at h
      cases hs : t.deref path with
      | none => simp only [hs] at h; cases h
      | some s =>
        simp only [hs] at h
        have hroot : (Slot.var y) ≠ .var x := fun e => hyx (by cases e; rfl)
        -- numbering of the variables
        have number : ∀ deep ≥ calls s, ∀ g vs m S, Live g vs y x t m S → ∃ matched sm m1 T1 S1 p,
            F (fun _ => true) before m (.var y) = .ok (some (matched, sm)) ∧
            (∀ id, Inside m matched s (sm id) ((mt id).getD [])) ∧ m.deref matched = .ok (some p) ∧
            listVarsAt 2 deep m (some p) [] true = .ok (m1, (listVarsRec 2 s [] true).2) ∧ Rigid m m1 ∧
            Live g vs y x (t.replaceAt path (listVariables 2 s).tree) m1 T1 ∧
            At m1 matched (listVariables 2 s).tree S1 ∧ matched ≠ .var x ∧ PlaceOf m1 (.var y) path matched := by
          intro deep hd g vs m S hm
          obtain ⟨matched, sm, e1, e2, e3⟩ := (hF _ before m _ t S hm.at_).2 path mt s hf' hs
          obtain ⟨S1, b1, b2, b3, b4⟩ := hm.at_.path hs e2
          have hmx : matched ≠ .var x := by
            rcases b3 with rfl | ⟨a, k, rfl, _⟩
            · exact hroot
            · simp
          obtain ⟨p, c1, c2, c3, c4⟩ := id b1
          obtain ⟨m1, f1, f2, f3, f4⟩ := listVarsAt_spec 2 (n := deep) (vs := []) (ok := true) c2 c3 hd
          have tr : Trade m matched S1 (listVariables 2 s).tree S1 m1 := by
            obtain ⟨s1, s2⟩ := Mem.putSlot_same c1
            refine ⟨p, ?_, by rw [f4.vars, s2]⟩
            rw [s1, ← listVarsRec_tree]
            exact ⟨f2, c3, fun a ha => .inl ha, fun a ha hb => absurd ha hb, fun a ha _ => f3 a ha⟩
          obtain ⟨T1, tr'⟩ := b4 _ _ _ tr
          exact ⟨matched, sm, m1, T1, S1, p, e1, e3, c1, f1, f4, hm.trade hyx tr', tr.at b1, hmx, f4.place e2⟩
        by_cases hcount : 1 < (listVariables 2 s).count
        · rw [if_pos hcount] at h
          cases h
          refine ⟨calls s, t.replaceAt path (listVariables 2 s).tree, fun v e => (by cases e), fun deep hd g vs a R ha m S hm => ?_⟩
          obtain ⟨matched, sm, m1, T1, S1, p, e1, e2, e3, e4, e5, e6, e7, e8, e9⟩ := number deep hd g vs m S hm
          refine ⟨m1, T1, ?_, e6⟩
          simp only [Machine.shorthandAt, e1, Out.bind_ok, e3, e4, listVarsRec_count, if_pos hcount, errorOf,
            Out.pure_eq]
        · rw [if_neg hcount] at h
          cases hmt : mt 0 with
          | none => simp only [hmt] at h; cases h
          | some l =>
            cases l with
            | nil => simp only [hmt] at h; cases h
            | cons arg rest =>
              simp only [hmt] at h
              obtain ⟨r1, hr1, h⟩ := Out.bind_eq_ok.1 h
              have hr1' : Machine.derivReplacement after (listVariables 2 s).vars s.tok (listVariables 2 arg).tree =
                  .ok r1 := by
                cases hc : Machine.derivReplacement after (listVariables 2 s).vars s.tok (listVariables 2 arg).tree with
                | ok f' => rw [hc] at hr1; cases hr1; rfl
                | defect => rw [hc] at hr1; cases hr1
                | ub => rw [hc] at hr1; cases hr1
              obtain ⟨o, c0, c1, i, rfl, hr2⟩ := derivReplacement_ok hr1'
              obtain ⟨n1, u, h0, h1⟩ := shorthandAt_live hF hyx h
              refine ⟨calls s + calls (listVariables 2 s).tree + calls (Tree.op o [c0, c1] i) + calls c0 + calls c1 +
                calls (listVariables 2 arg).tree + n1, u, h0, fun deep hd g vs a R ha m S hm => ?_⟩
              obtain ⟨matched, sm, m1, T1, S1, p, e1, e2, e3, e4, e5, e6, e7, e8, e9⟩ := number deep (by omega) g vs m S hm
              have hin := e2 0
              rw [hmt] at hin
              simp only [Option.getD_some] at hin
              cases hsm : sm 0 with
              | nil => rw [hsm] at hin; cases hin
              | cons sl ss =>
                rw [hsm] at hin
                obtain ⟨_, _, q, hl, hq, hpl, _⟩ := hin
                cases hl
                obtain ⟨f, hf1, hf2⟩ := listVariables_part hq hcount
                obtain ⟨X, x1, x2, x3, _⟩ := At.path (s := (listVariables 2 arg).tree) e7
                  (by rw [hf1, hf2]; exact deref_withIds f hq) (e5.place hpl)
                have hslx : sl ≠ .var x := by
                  rcases x3 with rfl | ⟨a, k, rfl, _⟩
                  · exact e8
                  · simp
                obtain ⟨pa, y1, y2, _⟩ := x1
                obtain ⟨pm, z1, z2, _⟩ := e7
                obtain ⟨m2, q2, T2, k1, k2⟩ := derivReplacementAt_spec M (deep := deep) (x := x)
                  (listVariables 2 s).vars (e6.stored ha) z1 z2 e8 y1 y2 hslx (by omega)
                have htok : (listVariables 2 s).tree.tok = s.tok := by rw [hf1, withIds_tok]
                rw [htok, ← hr2] at k2
                obtain ⟨m3, T3, l1, l2⟩ := k2.replace (n := deep) e6.at_ hroot (deref_replaceAt (t := t) _ hs) e9
                  (by omega)
                rw [replaceAt_twice _ _ hs] at l2
                obtain ⟨m4, T4, w1, w2⟩ := h1 deep (by omega) g vs a R ha m3 T3 (e6.step hyx l2)
                refine ⟨m4, T4, ?_, w2⟩
                have hdx : m2.deref (.var x) = .ok (some q2) := by simp [Mem.deref, k2.vars, Mem.setVar]
                simp only [Machine.shorthandAt, e1, Out.bind_ok, e3, e4]
                rw [listVarsRec_count, if_neg hcount]
                simp only [hsm, listVarsRec_vars, k1, hdx, l1, w1, Out.bind_ok]

theorem of_ok {α : Type} {r : Res α} {a : α} (h : Out.of r = .ok a) : r = .ok a := by
  cases r with
  | ok b => cases h; rfl
  | defect => cases h
  | ub => cases h

theorem applyDerivativesAt_live (hF : Finds K.dbl.eq F) (hyx : y ≠ x) {s : Simp V} {t : Tree V}
    {r : Except (SimpErr ε × Nat) (Tree V)} (h : K.applyDerivatives s t = .ok r) :
    ∃ n u, (∀ v, r = .ok v → u = v) ∧ ∀ deep ≥ n, ∀ g vs ms, StoredSimp g s ms →
      ∀ m S, Live g vs y x t m S →
      ∃ m' T, K.applyDerivativesAt M F deep x ms m (.var y) = .ok (errorOf r, m') ∧
        Live g vs y x u m' T := by
  unfold Machine.applyDerivatives at h
  cases hb : s.derivBefore with
  | none => rw [hb] at h; cases h
  | some before =>
  cases hm : s.malformedDeriv with
  | none => rw [hb, hm] at h; cases hx : s.derivAfter <;> rw [hx] at h <;> cases h
  | some malformed =>
  cases e1 : s.derivAfter with
  | none => rw [hb, hm, e1] at h; cases h
  | some after =>
  simp only [hb, hm, e1] at h
  have unpack : ∀ {g : Nat → Option (Cell V)} {ms : MemSimp V}, StoredSimp g s ms →
      ms.derivBefore = some before ∧ ms.malformedDeriv = some malformed ∧
      ∃ a R, ms.derivAfter = some a ∧ OwnershipSpec.Holds g after a R := by
    intro g ms hs
    refine ⟨hs.before.trans hb, hs.malformed.trans hm, ?_⟩
    rcases hs.after with ⟨f1, _⟩ | ⟨t', a, R, f1, f2, f3⟩
    · rw [e1] at f1; cases f1
    · rw [e1] at f1; cases f1; exact ⟨a, R, f2, f3⟩
  obtain ⟨r1, hr1, h⟩ := Out.bind_eq_ok.1 h
  obtain ⟨n1, u1, h0, h1⟩ := shorthandAt_live K M hF hyx hr1
  cases r1 with
  | error e =>
    cases h
    refine ⟨n1, u1, fun v e => (by cases e), fun deep hd g vs ms hs m S hL => ?_⟩
    obtain ⟨hb', hm', a, R, e2, hR⟩ := unpack hs
    obtain ⟨m', T, f1, f2⟩ := h1 deep hd g vs a R hR m S hL
    refine ⟨m', T, ?_, f2⟩
    simp [Machine.applyDerivativesAt, hb', hm', e2, f1, errorOf]
  | ok t1 =>
    obtain rfl : t1 = u1 := (h0 t1 rfl).symm
    obtain ⟨f, hf, h⟩ := Out.bind_eq_ok.1 h
    have hf' := of_ok hf
    cases f with
    | some pm =>
      obtain ⟨path, mt⟩ := pm
      simp only at h
      obtain ⟨i, hi, h⟩ := Out.bind_eq_ok.1 h
      cases h
      have hd1 : ∃ s1, t1.deref path = some s1 := by
        unfold errTok at hi
        cases hd : t1.deref path with
        | none => rw [hd] at hi; cases hi
        | some s1 => exact ⟨s1, rfl⟩
      obtain ⟨s1, hd1⟩ := hd1
      refine ⟨n1, t1, fun v e => (by cases e), fun deep hd g vs ms hs m S hL => ?_⟩
      obtain ⟨hb', hm', a, R, e2, hR⟩ := unpack hs
      obtain ⟨m', T, f1, f2⟩ := h1 deep hd g vs a R hR m S hL
      obtain ⟨matched, sm, k1, _⟩ := (hF K.checker malformed m' _ _ T f2.at_).2 path mt s1 hf' hd1
      refine ⟨m', T, ?_, f2⟩
      simp [Machine.applyDerivativesAt, hb', hm', e2, f1, errorOf, k1]
    | none =>
      simp only at h
      obtain ⟨t2, ht2, h⟩ := Out.bind_eq_ok.1 h
      obtain ⟨n2, h2⟩ := applySimplificationAt_live K M hF hyx ht2
      cases after with
      | const v i => cases h
      | var v k i => cases h
      | op o cs i =>
        simp only [Tree.rootOp] at h
        have run : ∀ deep ≥ n1 + n2 + calls t2, ∀ g vs ms, StoredSimp g s ms → ∀ m S, Live g vs y x t m S → ∃ m2 T2 r2,
            K.applyDerivativesAt M F deep x ms m (.var y) =
              .ok (if (findOpNode o.id t2 []).isSome then some .impossible else none, m2) ∧
            Live g vs y x t2 m2 T2 ∧ findOpAt o.id deep m2 (.var y) = .ok r2 := by
          intro deep hd g vs ms hs m S hL
          obtain ⟨hb', hm', a, R, e2, hR⟩ := unpack hs
          obtain ⟨m', T, f1, f2⟩ := h1 deep (by omega) g vs a R hR m S hL
          have k1 := (hF K.checker malformed m' _ _ T f2.at_).1 hf'
          obtain ⟨m2, T2, g1, g2⟩ := h2 deep (by omega) g vs _ (hs.rulesets 1) m' T f2
          obtain ⟨ps, T', w1, _⟩ := g2.stored hR
          obtain ⟨p, z1, z2, _⟩ := g2.at_
          obtain ⟨r2, y1, y2⟩ := findOpAt_spec o.id (n := deep) [] z1 z2 (by omega)
          refine ⟨m2, T2, r2, ?_, g2, y1⟩
          rw [← y2]
          cases r2 <;> simp [Machine.applyDerivativesAt, hb', hm', e2, f1, errorOf, k1, g1, w1, y1]
        refine ⟨n1 + n2 + calls t2, t2, ?_, fun deep hd g vs ms hs m S hL => ?_⟩
        · cases hq : findOpNode o.id t2 [] with
          | some p =>
            rw [hq] at h
            obtain ⟨i', _, h⟩ := Out.bind_eq_ok.1 h
            cases h
            exact fun v e => by cases e
          | none =>
            rw [hq] at h
            cases h
            exact fun v e => by cases e; rfl
        obtain ⟨m2, T2, r2, j1, j2, _⟩ := run deep hd g vs ms hs m S hL
        cases hq : findOpNode o.id t2 [] with
        | some p =>
          rw [hq] at h j1
          obtain ⟨i', _, h⟩ := Out.bind_eq_ok.1 h
          cases h
          exact ⟨m2, T2, by simpa [errorOf] using j1, j2⟩
        | none =>
          rw [hq] at h j1
          cases h
          exact ⟨m2, T2, by simpa [errorOf] using j1, j2⟩

theorem fold_cases {t : Tree V} {r : Except (SimpErr ε × Nat) (Tree V)} (h : K.fold t = .ok r) :
    errorOf r = ((reduceConst K.arith K.varErr t []).2.map (·.1)).map .listener ∧
      ∀ v, r = .ok v → v = (reduceConst K.arith K.varErr t []).1 := by
  unfold Machine.fold at h
  generalize reduceConst K.arith K.varErr t [] = q at h
  obtain ⟨q1, q2⟩ := q
  cases q2 with
  | none => cases h; exact ⟨rfl, fun v e => by cases e; rfl⟩
  | some ep =>
    obtain ⟨e, p⟩ := ep
    simp only at h
    obtain ⟨i, _, h⟩ := Out.bind_eq_ok.1 h
    cases h
    exact ⟨rfl, fun v e => by cases e⟩

theorem simplifyAt_live (hF : Finds K.dbl.eq F) (hyx : y ≠ x) {s : Simp V} {t : Tree V}
    {r : Except (SimpErr ε × Nat) (Tree V)} (h : K.simplify s t = .ok r) :
    ∃ n u, (∀ v, r = .ok v → u = v) ∧ ∀ deep ≥ n, ∀ g vs ms, StoredSimp g s ms →
      ∀ m S, Live g vs y x t m S →
      ∃ m' T, K.simplifyAt M F deep x ms m (.var y) = .ok (errorOf r, m') ∧
        Live g vs y x u m' T := by
  unfold Machine.simplify at h
  cases hi : s.initialized with
  | false =>
    rw [hi] at h
    simp only [Bool.not_false, if_true] at h
    obtain ⟨c1, c2⟩ := fold_cases K h
    refine ⟨calls t + 1, _, fun v e => (c2 v e).symm, fun deep hd g vs ms hs m S hm => ?_⟩
    obtain ⟨m1, T1, e1, e2⟩ := reduceConstants_live M K.arith K.varErr hyx hm (deep := deep) (by omega)
    refine ⟨m1, T1, ?_, e2⟩
    simp [Machine.simplifyAt, e1, hs.initialized, hi, c1]
  | true =>
    rw [hi] at h
    simp only [Bool.not_true, Bool.false_eq_true, if_false] at h
    obtain ⟨t1, ht1, h⟩ := Out.bind_eq_ok.1 h
    obtain ⟨n1, h1⟩ := applyAllAt_live K M hF hyx ht1
    obtain ⟨r2, hr2, h⟩ := Out.bind_eq_ok.1 h
    obtain ⟨n2, u, h0, h2⟩ := applyDerivativesAt_live K M hF hyx hr2
    have first : ∀ deep ≥ calls t + 1 + n1 + n2, ∀ g vs ms, StoredSimp g s ms → ∀ m S, Live g vs y x t m S → ∃ m0 m1 m2 T2,
        reduceConstants M K.arith K.varErr deep m (.var y) =
          .ok ((reduceConst K.arith K.varErr t []).2.map (·.1), m0) ∧
        K.applyAllAt M F deep x ms.rulesets [0, 2, 3, 4, 5, 6] m0 (.var y) = .ok m1 ∧
        K.applyDerivativesAt M F deep x ms m1 (.var y) = .ok (errorOf r2, m2) ∧
        Live g vs y x u m2 T2 := by
      intro deep hd g vs ms hs m S hm
      obtain ⟨m0, T0, e1, e2⟩ := reduceConstants_live M K.arith K.varErr hyx hm (deep := deep) (by omega)
      obtain ⟨m1, T1, f1, f2⟩ := h1 deep (by omega) g vs _ hs.rulesets m0 T0 e2
      obtain ⟨m2, T2, g1, g2⟩ := h2 deep (by omega) g vs ms hs m1 T1 f2
      exact ⟨m0, m1, m2, T2, e1, f1, g1, g2⟩
    cases r2 with
    | error e =>
      cases h
      refine ⟨calls t + 1 + n1 + n2, u, fun v e => (by cases e), fun deep hd g vs ms hs m S hm => ?_⟩
      obtain ⟨m0, m1, m2, T2, e1, e2, e3, e4⟩ := first deep hd g vs ms hs m S hm
      refine ⟨m2, T2, ?_, e4⟩
      simp [Machine.simplifyAt, e1, hs.initialized, hi, e2, e3, errorOf]
    | ok t2 =>
      obtain ⟨t3, ht3, h⟩ := Out.bind_eq_ok.1 h
      obtain ⟨n3, h3⟩ := applyAllAt_live K M hF hyx ht3
      obtain ⟨r4, hr4, h⟩ := Out.bind_eq_ok.1 h
      obtain ⟨c1, c2⟩ := fold_cases K hr4
      cases h0 t2 rfl
      have run : ∀ deep ≥ calls t + 1 + n1 + n2 + n3 + calls t3 + 1, ∀ g vs ms, StoredSimp g s ms →
          ∀ m S, Live g vs y x t m S →
          ∃ m0 m1 m2 m3 m4 T4,
          reduceConstants M K.arith K.varErr deep m (.var y) =
            .ok ((reduceConst K.arith K.varErr t []).2.map (·.1), m0) ∧
          K.applyAllAt M F deep x ms.rulesets [0, 2, 3, 4, 5, 6] m0 (.var y) = .ok m1 ∧
          K.applyDerivativesAt M F deep x ms m1 (.var y) = .ok (none, m2) ∧
          K.applyAllAt M F deep x ms.rulesets [0, 2, 3, 4, 5, 6] m2 (.var y) = .ok m3 ∧
          reduceConstants M K.arith K.varErr deep m3 (.var y) =
            .ok ((reduceConst K.arith K.varErr t3 []).2.map (·.1), m4) ∧
          Live g vs y x (reduceConst K.arith K.varErr t3 []).1 m4 T4 := by
        intro deep hd g vs ms hs m S hm
        obtain ⟨m0, m1, m2, T2, e1, e2, e3, e4⟩ := first deep (by omega) g vs ms hs m S hm
        obtain ⟨m3, T3, f1, f2⟩ := h3 deep (by omega) g vs _ hs.rulesets m2 T2 e4
        obtain ⟨m4, T4, g1, g2⟩ := reduceConstants_live M K.arith K.varErr hyx f2 (deep := deep) (by omega)
        exact ⟨m0, m1, m2, m3, m4, T4, e1, e2, e3, f1, g1, g2⟩
      cases r4 with
      | error e =>
        cases h
        refine ⟨calls t + 1 + n1 + n2 + n3 + calls t3 + 1, (reduceConst K.arith K.varErr t3 []).1,
          fun v e => (by cases e), fun deep hd g vs ms hs m S hm => ?_⟩
        obtain ⟨m0, m1, m2, m3, m4, T4, e1, e2, e3, f1, g1, g2⟩ := run deep hd g vs ms hs m S hm
        refine ⟨m4, T4, ?_, g2⟩
        cases hq : (reduceConst K.arith K.varErr t3 []).2 with
        | none => rw [hq] at c1; cases c1
        | some ep =>
          rw [hq] at c1 g1
          simp only [errorOf, Option.map_some, Option.some.injEq] at c1 g1
          simp [Machine.simplifyAt, e1, hs.initialized, hi, e2, e3, errorOf, f1, g1, c1]
      | ok t4 =>
        cases h
        cases c2 t4 rfl
        refine ⟨calls t + 1 + n1 + n2 + n3 + calls t3 + 1 + calls (reduceConst K.arith K.varErr t3 []).1 + 1, _,
          fun v e => (by cases e; rfl), fun deep hd g vs ms hs m S hm => ?_⟩
        obtain ⟨m0, m1, m2, m3, m4, T4, e1, e2, e3, f1, g1, g2⟩ := run deep (by omega) g vs ms hs m S hm
        obtain ⟨m5, T5, k1, k2⟩ := replaceNegAt_live M K.dbl hyx g2 (deep := deep) (by omega)
        refine ⟨m5, T5, ?_, k2⟩
        cases hq : (reduceConst K.arith K.varErr t3 []).2 with
        | some ep => rw [hq] at c1; cases c1
        | none =>
          rw [hq] at g1
          simp only [Option.map_none] at g1
          simp [Machine.simplifyAt, e1, hs.initialized, hi, e2, e3, errorOf, f1, g1, k1]

end

end Verif
