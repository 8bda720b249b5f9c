import Verif.Props.Matching
import Verif.Props.Parser

/-!
# C29–C31, C51: rewriting
-/

namespace Verif.RewriteProps
open Verif TreeProps MatchProps
variable {V ε : Type}

/-- A rule as it is written: left side, constraints, right side; `get_pattern` and
`get_rule` accept it and make `rule` of it. -/
structure Accepted (before : Tree V) (cs : List (Tree V)) (after : Tree V) (rule : RewriteRule V) :
    Prop where
  ok : ∃ pat, getPattern before cs = .ok pat ∧ getRule pat after = some rule

theorem Accepted.spec {before after : Tree V} {cs : List (Tree V)} {rule : RewriteRule V}
    (h : Accepted before cs after rule) :
    getPattern before cs = .ok rule.pattern ∧
    PatternOf before cs (addNew [] before.names) rule.pattern ∧
    rule.after = after.withIds (addNew [] before.names).idxOf ∧
    ∀ n ∈ after.names, n ∈ before.names := by
  obtain ⟨pat, h1, h2⟩ := h.ok
  obtain ⟨h3, h4, h5⟩ := getRule_spec (getPattern_spec h1) h2
  rw [h3]
  exact ⟨h1, getPattern_spec h1, h4, h5⟩

theorem getMatching_mem {eqV : V → V → Bool} {checker : Tree V → Bool} {pat : Pattern V} {s : Tree V}
    {m : Matching V} (h : getMatching eqV checker pat s = .ok (some m)) :
    ∃ ms, getAllMatchings eqV checker pat s = .ok ms ∧ m ∈ ms := by
  unfold getMatching at h
  obtain ⟨ms, hms, h⟩ := Res.bind_eq_ok.1 h
  simp only [Res.pure_eq, Res.ok.injEq] at h
  exact ⟨ms, hms, List.mem_of_mem_head? (by rw [h]; rfl)⟩

/-! ## C29 -/

/-- **C29.** If no subtree matches, the rule is not applied, and vice versa. -/
theorem C29_not_applied (eqV : V → V → Bool) (checker : Tree V → Bool) (rule : RewriteRule V)
    (u : Tree V) (h : applyRule eqV checker rule u = .ok none) :
    ∀ x ∈ u.preorder [], getMatching eqV checker rule.pattern x.2 = .ok none := by
  unfold applyRule at h
  obtain ⟨r, hr, h⟩ := Res.bind_eq_ok.1 h
  have := findMatching_spec eqV checker rule.pattern u [] r hr
  cases r with
  | none => exact this
  | some r =>
    obtain ⟨p, m⟩ := r
    simp only at h
    split at h
    · cases h
    · obtain ⟨w, -, h⟩ := Res.bind_eq_ok.1 h
      cases h

/-- **C29.** If a rule is applied, one subtree `s` that matches its left side is
replaced, the first in pre-order.  The new subtree `w` is the right side where all
variables are simultaneously replaced by what the matching assigns to them, all
nodes of the right side carry the token number of `s`, and the rest of the tree is
as before. -/
theorem C29_applied {before after : Tree V} {cs : List (Tree V)} {rule : RewriteRule V}
    (hr : Accepted before cs after rule) (eqV : V → V → Bool) (checker : Tree V → Bool)
    (u u' : Tree V) (h : applyRule eqV checker rule u = .ok (some u')) :
    ∃ pre p s post m w, u.preorder [] = pre ++ (p, s) :: post ∧
      (∀ x ∈ pre, getMatching eqV checker rule.pattern x.2 = .ok none) ∧
      getMatching eqV checker rule.pattern s = .ok (some m) ∧
      (∀ σ, Assigns before m σ → Inst σ (fun _ => s.tok) after [w]) ∧
      Replaced u p s w u' := by
  obtain ⟨hp, hs, hafter, hn⟩ := hr.spec
  unfold applyRule at h
  obtain ⟨r, hr', h⟩ := Res.bind_eq_ok.1 h
  have := findMatching_spec eqV checker rule.pattern u [] r hr'
  cases r with
  | none => cases h
  | some r =>
    obtain ⟨p, m⟩ := r
    obtain ⟨pre, s, post, h1, h2, h3⟩ := this
    have hmem : (p, s) ∈ u.preorder [] := by rw [h1]; simp
    obtain ⟨q, hq, hd⟩ := (mem_preorder u [] p s).1 hmem
    simp only [List.nil_append] at hq
    subst hq
    simp only [hd] at h
    obtain ⟨w, hw, h⟩ := Res.bind_eq_ok.1 h
    simp only [Res.pure_eq, Res.ok.injEq, Option.some.injEq] at h
    subst h
    refine ⟨pre, p, s, post, m, w, h1, h2, h3, ?_, replaceAt_spec u p s w hd⟩
    intro σ hσ
    obtain ⟨ms, hms, hm⟩ := getMatching_mem h3
    have he := extends_of hp eqV checker s (fun _ => True) (fun _ _ _ _ _ _ => trivial) trivial hms hm
    have hg := Assigns.get hs he.inv hσ
    rw [treeCopy_eq, setTokAll_eq, hafter] at hw
    rw [inst_iff _ after fun n hn' => hg n (hn n hn')]
    refine ((transformByMatching_iff m _ w ?_).1 hw).symm
    rw [withTok_vars, withIds_vars]
    intro x hx
    obtain ⟨n, hn', rfl⟩ := List.mem_map.1 hx
    have := List.idxOf_lt_length_of_mem (hs.mem.2 (hn n hn'))
    have := hs.len
    simp only
    omega

/-- **C29**, in terms of assignments: `s` is an instance of the left side, `w` the same
instance of the right side, and the constraints hold. -/
theorem C29_instance {before after : Tree V} {cs : List (Tree V)} {rule : RewriteRule V}
    (hr : Accepted before cs after rule) (eqV : V → V → Bool) (checker : Tree V → Bool)
    (u u' : Tree V) (h : applyRule eqV checker rule u = .ok (some u')) :
    ∃ σ p s l w, Replaced u p s w u' ∧ Inst σ (fun i => i) before [l] ∧ Equal eqV l s ∧
      (∀ n ∈ before.varNames, ¬ ListName n → ∃ x, σ n = some [x]) ∧
      ((∀ c ∈ cs, ∀ n ∈ c.varNames, n ∈ before.varNames) → before.varNames ≠ [] →
        ∀ c ∈ cs, ∃ c', Inst σ (fun i => i) c [c'] ∧ checker c' = true) ∧
      Inst σ (fun _ => s.tok) after [w] := by
  obtain ⟨pre, p, s, post, m, w, -, -, h3, h4, h5⟩ := C29_applied hr eqV checker u u' h
  obtain ⟨σ, hσ⟩ := C26_assignment before m
  obtain ⟨hp, -, -, -⟩ := hr.spec
  obtain ⟨ms, hms, hm⟩ := getMatching_mem h3
  obtain ⟨⟨l, h6, h7⟩, h8⟩ := C26_sound hp eqV checker s hms hm hσ
  exact ⟨σ, p, s, l, w, h5, h6, h7, h8,
    fun hv hne => C26_constraints_partial hp hv hne eqV checker s hms hm hσ, h4 σ hσ⟩

/-! ## C30 -/

theorem Inst.names {σ : Str → Option (List (Tree V))} {g : Nat → Nat} (t : Tree V) {l : List (Tree V)}
    (h : Inst σ g t l) (n : Str) (hn : n ∈ Tree.namesList l) :
    ∃ a ∈ t.names, ∃ r, σ a = some r ∧ n ∈ Tree.namesList r := by
  induction t using Tree.induct generalizing l with
  | hc => cases h; simp [Tree.namesList, Tree.names] at hn
  | hv a x i =>
    cases h with
    | var h => exact ⟨a, by simp [Tree.names], l, h, hn⟩
  | ho o cs i ih =>
    cases h with
    | @op _ _ _ parts hl h =>
      simp only [Tree.namesList, Tree.names, List.append_nil] at hn
      obtain ⟨c, hc, hn⟩ := namesList_mem.1 hn
      obtain ⟨part, hpart, hc⟩ := List.mem_flatten.1 hc
      obtain ⟨k, hk, rfl⟩ := List.mem_iff_getElem.1 hpart
      have hk' : k < cs.length := by omega
      obtain ⟨a, ha, r, h1, h2⟩ := ih _ (List.getElem_mem hk') (h k hk') (namesList_mem.2 ⟨c, hc, hn⟩)
      exact ⟨a, by simp only [Tree.names]; exact namesList_mem.2 ⟨_, List.getElem_mem hk', ha⟩, r, h1, h2⟩

/-- All variables of an assigned tree occur in the instance. -/
theorem Inst.names_of {σ : Str → Option (List (Tree V))} {g : Nat → Nat} (t : Tree V) {l : List (Tree V)}
    (h : Inst σ g t l) {a : Str} (ha : a ∈ t.names) {r : List (Tree V)} (hr : σ a = some r) {n : Str}
    (hn : n ∈ Tree.namesList r) : n ∈ Tree.namesList l := by
  induction t using Tree.induct generalizing l with
  | hc => cases ha
  | hv b x i =>
    simp only [Tree.names, List.mem_singleton] at ha
    subst ha
    cases h with
    | var h => rw [hr] at h; cases h; exact hn
  | ho o cs i ih =>
    cases h with
    | @op _ _ _ parts hl h =>
      simp only [Tree.names] at ha
      obtain ⟨c, hc, ha⟩ := namesList_mem.1 ha
      obtain ⟨k, hk, rfl⟩ := List.mem_iff_getElem.1 hc
      have := ih _ hc (h k hk) ha
      simp only [Tree.namesList, Tree.names, List.append_nil]
      obtain ⟨d, hd, hn⟩ := namesList_mem.1 this
      exact namesList_mem.2 ⟨d, List.mem_flatten.2 ⟨_, List.getElem_mem (hl ▸ hk), hd⟩, hn⟩

theorem Equal.names {eqV : V → V → Bool} {a b : Tree V} (h : Equal eqV a b) : a.names = b.names := by
  induction h with
  | refl => rfl
  | const => rfl
  | var => rfl
  | @op o p cs ds i j hl _ _ ih =>
    simp only [Tree.names]
    have : ∀ (cs ds : List (Tree V)) (hl : cs.length = ds.length),
        (∀ k (hk : k < cs.length), cs[k].names = (ds[k]'(hl ▸ hk)).names) →
        Tree.namesList cs = Tree.namesList ds := by
      intro cs
      induction cs with
      | nil => intro ds hl _; cases ds with
        | nil => rfl
        | cons => simp at hl
      | cons c cs ih =>
        intro ds hl h
        cases ds with
        | nil => simp at hl
        | cons d ds =>
          have h0 := h 0 (by simp)
          simp only [List.getElem_cons_zero] at h0
          have h1 := ih ds (by simpa using hl) fun k hk => by
            have := h (k + 1) (by simpa using hk)
            simpa using this
          simp only [Tree.namesList, h0, h1]
    exact this cs ds hl ih

theorem namesList_append (a b : List (Tree V)) :
    Tree.namesList (a ++ b) = Tree.namesList a ++ Tree.namesList b := by
  induction a with
  | nil => rfl
  | cons c a ih => simp [Tree.namesList, ih]

theorem Replaced.names {u s w u' : Tree V} {p : List Nat} (h : Replaced u p s w u') {n : Str}
    (hn : n ∈ u'.names) : n ∈ w.names ∨ n ∈ u.names := by
  induction h with
  | here => exact .inl hn
  | child _ ih =>
    simp only [Tree.names, namesList_append, Tree.namesList, List.mem_append] at hn ⊢
    rcases hn with hn | hn | hn
    · exact .inr (.inl hn)
    · rcases ih hn with h | h
      · exact .inl h
      · exact .inr (.inr (.inl h))
    · exact .inr (.inr (.inr hn))

theorem Replaced.sub {u s w u' : Tree V} {p : List Nat} (h : Replaced u p s w u') {n : Str}
    (hn : n ∈ s.names) : n ∈ u.names := by
  induction h with
  | here => exact hn
  | child _ ih =>
    simp only [Tree.names, namesList_append, Tree.namesList, List.mem_append]
    exact .inr (.inl (ih hn))

/-- **C30.** Applying an accepted rule introduces no variables. -/
theorem C30_variables {before after : Tree V} {cs : List (Tree V)} {rule : RewriteRule V}
    (hr : Accepted before cs after rule) (eqV : V → V → Bool) (checker : Tree V → Bool)
    (u u' : Tree V) (h : applyRule eqV checker rule u = .ok (some u')) :
    ∀ n ∈ u'.varNames, n ∈ u.varNames := by
  obtain ⟨-, -, -, hsub⟩ := hr.spec
  obtain ⟨σ, p, s, l, w, h1, h2, h3, -, -, h4⟩ := C29_instance hr eqV checker u u' h
  simp only [varNames_eq]
  intro n hn
  rcases Replaced.names h1 hn with hn | hn
  · obtain ⟨a, ha, r, hr', hn⟩ := Inst.names after h4 n (by simpa [Tree.namesList] using hn)
    have := Inst.names_of before h2 (hsub a ha) hr' hn
    simp only [Tree.namesList, List.append_nil] at this
    rw [Equal.names h3] at this
    exact Replaced.sub h1 this
  · exact hn

/-- List variables stand only below operators of dynamic arity. -/
inductive ListsBelowDyn : Tree V → Prop where
  | const {v i} : ListsBelowDyn (.const v i)
  | var {n x i} : ListsBelowDyn (.var n x i)
  | op {o cs i} : (o.arity = .dyn ∨ ∀ n x j, Tree.var n x j ∈ cs → ¬ ListName n) →
      (∀ c ∈ cs, ListsBelowDyn c) → ListsBelowDyn (.op o cs i)

theorem Inst.arity {σ : Str → Option (List (Tree V))} {g : Nat → Nat} (t : Tree V) {l : List (Tree V)}
    (h : Inst σ g t l) (ha : ParserProps.ArityOk t) (hd : ListsBelowDyn t)
    (h1 : ∀ n ∈ t.names, ¬ ListName n → ∃ x, σ n = some [x])
    (h2 : ∀ n ∈ t.names, ∀ r, σ n = some r → ∀ x ∈ r, ParserProps.ArityOk x) :
    ∀ x ∈ l, ParserProps.ArityOk x := by
  induction t using Tree.induct generalizing l with
  | hc => cases h; simp only [List.mem_singleton, forall_eq]; exact .const _ _
  | hv n x i =>
    cases h with
    | var h => exact h2 n (by simp [Tree.names]) l h
  | ho o cs i ih =>
    cases h with
    | @op _ _ _ parts hl h =>
      cases ha with
      | op _ _ _ ha1 ha2 =>
      cases hd with
      | op hd1 hd2 =>
      simp only [List.mem_singleton, forall_eq]
      have hsub : ∀ k (hk : k < cs.length), ∀ n ∈ cs[k].names, n ∈ (Tree.op o cs i).names := by
        intro k hk n hn
        simp only [Tree.names]
        exact namesList_mem.2 ⟨_, List.getElem_mem hk, hn⟩
      refine .op _ _ _ ?_ ?_
      · rcases hd1 with hd1 | hd1
        · exact .inl hd1
        · rcases ha1 with ha1 | ha1
          · exact .inl ha1
          · refine .inr ?_
            rw [ha1]
            congr 1
            -- every operand is replaced by exactly one tree
            have hone : ∀ q ∈ parts, q.length = 1 := by
              intro q hq
              obtain ⟨k, hk, rfl⟩ := List.mem_iff_getElem.1 hq
              have hk' : k < cs.length := by omega
              have hi := h k hk'
              generalize hc : cs[k] = c at hi
              generalize parts[k] = part at hi ⊢
              cases hi with
              | const => rfl
              | op => rfl
              | @var n x j l' hs =>
                have hmem : Tree.var n x j ∈ cs := hc ▸ List.getElem_mem hk'
                obtain ⟨y, hy⟩ := h1 n (hsub k hk' n (by rw [hc]; simp [Tree.names])) (hd1 n x j hmem)
                rw [hy] at hs
                simp only [Option.some.injEq] at hs
                rw [← hs]
                rfl
            rw [hl]
            clear h hl
            induction parts with
            | nil => rfl
            | cons q qs ihq =>
              simp only [List.flatten_cons, List.length_append, List.length_cons]
              rw [← ihq fun r hr => hone r (by simp [hr]), hone q (by simp)]
              omega
      · intro c hc
        obtain ⟨part, hpart, hc⟩ := List.mem_flatten.1 hc
        obtain ⟨k, hk, rfl⟩ := List.mem_iff_getElem.1 hpart
        have hk' : k < cs.length := by omega
        exact ih _ (List.getElem_mem hk') (h k hk') (ha2 _ (List.getElem_mem hk'))
          (hd2 _ (List.getElem_mem hk')) (fun n hn => h1 n (hsub k hk' n hn))
          (fun n hn => h2 n (hsub k hk' n hn)) c hc

theorem Replaced.arity {u s w u' : Tree V} {p : List Nat} (h : Replaced u p s w u')
    (hu : ParserProps.ArityOk u) (hw : ParserProps.ArityOk s → ParserProps.ArityOk w) :
    ParserProps.ArityOk u' := by
  induction h with
  | here => exact hw hu
  | child _ ih =>
    cases hu with
    | op _ _ _ h1 h2 =>
      refine .op _ _ _ (by simpa using h1) ?_
      intro c hc
      simp only [List.mem_append, List.mem_cons] at hc
      rcases hc with hc | rfl | hc
      · exact h2 c (by simp [hc])
      · exact ih (h2 _ (by simp)) hw
      · exact h2 c (by simp [hc])

theorem Replaced.arity_sub {u s w u' : Tree V} {p : List Nat} (h : Replaced u p s w u')
    (hu : ParserProps.ArityOk u) : ParserProps.ArityOk s := by
  induction h with
  | here => exact hu
  | child _ ih =>
    cases hu with
    | op _ _ _ h1 h2 => exact ih (h2 _ (by simp))

/-- **C30.** If list variables of the right side stand only below operators of dynamic
arity, applying a rule keeps arities. -/
theorem C30_arity {before after : Tree V} {cs : List (Tree V)} {rule : RewriteRule V}
    (hr : Accepted before cs after rule) (ha : ParserProps.ArityOk after) (hd : ListsBelowDyn after)
    (eqV : V → V → Bool) (checker : Tree V → Bool) (u u' : Tree V) (hu : ParserProps.ArityOk u)
    (h : applyRule eqV checker rule u = .ok (some u')) : ParserProps.ArityOk u' := by
  obtain ⟨hp, hs, -, hsub⟩ := hr.spec
  obtain ⟨pre, p, s, post, m, w, -, -, h3, h4, h5⟩ := C29_applied hr eqV checker u u' h
  obtain ⟨σ, hσ⟩ := C26_assignment before m
  obtain ⟨ms, hms, hm⟩ := getMatching_mem h3
  have he := extends_of hp eqV checker s ParserProps.ArityOk
    (fun o cs i h c hc => by cases h with | op _ _ _ _ h => exact h c hc)
    (Replaced.arity_sub h5 hu) hms hm
  have hg := Assigns.get hs he.inv hσ
  obtain ⟨-, h8⟩ := C26_sound hp eqV checker s hms hm hσ
  refine Replaced.arity h5 hu fun _ => ?_
  refine Inst.arity after (h4 σ hσ) ha hd ?_ ?_ w (by simp)
  · intro n hn
    exact h8 n (by rw [varNames_eq]; exact hsub n hn)
  · intro n hn r hr' x hx
    rw [hg n (hsub n hn)] at hr'
    cases hr'
    have hlt := List.idxOf_lt_length_of_mem (hs.mem.2 (hsub n hn))
    exact he.inv.mem _ _ (he.inv.get hlt) x hx

/-! ## C60 -/

mutual
/-- Number of nodes. -/
def nodes : Tree V → Nat
  | .const _ _ => 1
  | .var _ _ _ => 1
  | .op _ cs _ => 1 + nodesList cs
def nodesList : List (Tree V) → Nat
  | [] => 0
  | c :: cs => nodes c + nodesList cs
end

theorem nodes_pos (t : Tree V) : 0 < nodes t := by
  cases t <;> simp [nodes] <;> omega

theorem nodesList_mem {l : List (Tree V)} {c : Tree V} (h : c ∈ l) : nodes c ≤ nodesList l := by
  induction l with
  | nil => cases h
  | cons d l ih =>
    simp only [nodesList]
    rcases List.mem_cons.1 h with rfl | h
    · omega
    · have := ih h; omega

/-- **C60.** `tree_replace_by_list` replaces the child by copies of the trees of the
list, in their order, and keeps everything else. -/
theorem C60_replace_by_list (o : Op) (pre post list : List (Tree V)) (c : Tree V) (i : Nat) :
    treeReplaceByList (.op o (pre ++ c :: post) i) pre.length list
      = .ok (.op o (pre ++ list ++ post) i) := by
  have hc : treeCopy = (id : Tree V → Tree V) := funext treeCopy_eq
  simp only [treeReplaceByList]
  rw [if_pos (by simp)]
  split <;> simp [hc]

theorem transformLoop_spec (m : Matching V) (fuel : Nat) : ∀ (o : Op) (pre cs : List (Tree V)) (j : Nat),
    nodesList cs < fuel → transformLoop m fuel (.op o (pre ++ cs) j) pre.length
      = (do let cs' ← transformNodes m cs; pure (some (.op o (pre ++ cs') j))) := by
  induction fuel with
  | zero => intro o pre cs j h; omega
  | succ fuel ih =>
    intro o pre cs j h
    cases cs with
    | nil => simp [transformLoop, transformNodes, Res.pure_eq]
    | cons c cs =>
      have hget : (pre ++ c :: cs)[pre.length]? = some c := by simp
      simp only [nodesList] at h
      cases c with
      | const v i =>
        have := ih o (pre ++ [.const v i]) cs j (by simp only [nodes] at h; omega)
        simp only [transformLoop, hget, transformNodes, transformNode, Res.bind_ok]
        simp only [List.append_assoc, List.singleton_append, List.length_append, List.length_cons,
          List.length_nil, Nat.zero_add] at this
        rw [this]
        cases transformNodes m cs <;> rfl
      | var n id i =>
        simp only [transformLoop, hget, transformNodes, transformNode]
        cases hl : m.nodes id with
        | defect => rfl
        | ub => rfl
        | ok l =>
          have := ih o (pre ++ l) cs j (by simp only [nodes] at h; omega)
          simp only [Res.bind_ok, C60_replace_by_list, Res.pure_eq]
          have hc : treeCopy = (_root_.id : Tree V → Tree V) := funext treeCopy_eq
          rw [← List.length_append, this, hc, List.map_id]
          cases transformNodes m cs <;> simp [Res.pure_eq]
      | op q ds k =>
        simp only [nodes] at h
        have h1 := ih q [] ds k (by omega)
        simp only [List.nil_append, List.length_nil] at h1
        simp only [transformLoop, hget, transformNodes, transformNode, h1]
        cases hl : transformNodes m ds with
        | defect => rfl
        | ub => rfl
        | ok ds' =>
          have := ih o (pre ++ [.op q ds' k]) cs j (by omega)
          simp only [List.append_assoc, List.singleton_append, List.length_append, List.length_cons,
            List.length_nil, Nat.zero_add] at this
          simp only [Res.bind_ok, Res.pure_eq]
          rw [List.set_append_right _ _ (Nat.le_refl _), Nat.sub_self, List.set_cons_zero, this]
          cases transformNodes m cs <;> simp [Res.pure_eq]

/-- **C60.** The loop over a node's children that grows or shrinks under it ends, and
leaves what simultaneous substitution asks for: inserted trees are not visited
again, so variables in them are kept. -/
theorem C60_loop (m : Matching V) (o : Op) (cs : List (Tree V)) (j fuel : Nat)
    (hf : nodes (.op o cs j) ≤ fuel) (σ : Str → Option (List (Tree V)))
    (hσ : ∀ n id i, ∀ t ∈ (Tree.op o cs j).preorder [], t.2 = .var n id i →
      id < maxMappedVars ∧ σ n = some ((m id).getD [])) :
    ∃ u, transformLoop m fuel (.op o cs j) 0 = .ok (some u) ∧ Inst σ (fun i => i) (.op o cs j) [u] := by
  have h := transformLoop_spec m fuel o [] cs j (by simp only [nodes] at hf; omega)
  simp only [List.nil_append, List.length_nil] at h
  have hv : ∀ (t : Tree V) p, (∀ n id i, ∀ s ∈ t.preorder p, s.2 = .var n id i →
      id < maxMappedVars ∧ σ n = some ((m id).getD [])) →
      ∃ l, transformNode m t = .ok l ∧ Inst σ (fun i => i) t l := by
    intro t
    induction t using Tree.induct with
    | hc => intro p _; exact ⟨_, rfl, .const⟩
    | hv n id i =>
      intro p hp
      obtain ⟨h1, h2⟩ := hp n id i (p, .var n id i) (by simp [Tree.preorder]) rfl
      have hc : treeCopy = (_root_.id : Tree V → Tree V) := funext treeCopy_eq
      refine ⟨(m id).getD [], ?_, .var h2⟩
      simp [transformNode, Matching.nodes, h1, hc, Res.pure_eq]
    | ho o cs i ih =>
      intro p hp
      have hall : ∀ (ds : List (Tree V)) k, (∀ c ∈ ds, c ∈ cs) →
          (∀ n id i, ∀ s ∈ Tree.preorders p k ds, s.2 = .var n id i →
            id < maxMappedVars ∧ σ n = some ((m id).getD [])) →
          ∃ parts, transformNodes m ds = .ok (parts.flatten) ∧ List.Forall₂ (Inst σ fun i => i) ds parts := by
        intro ds
        induction ds with
        | nil => intro k _ _; exact ⟨[], rfl, .nil⟩
        | cons c ds ihd =>
          intro k hsub hpd
          obtain ⟨l, h1, h2⟩ := ih c (hsub c (by simp)) (p ++ [k]) fun n id i s hs =>
            hpd n id i s (by simp [Tree.preorders, hs])
          obtain ⟨parts, h3, h4⟩ := ihd (k + 1) (fun c hc => hsub c (by simp [hc])) fun n id i s hs =>
            hpd n id i s (by simp [Tree.preorders, hs])
          exact ⟨l :: parts, by simp [transformNodes, h1, h3, Res.pure_eq], .cons h2 h4⟩
      obtain ⟨parts, h1, h2⟩ := hall cs 0 (fun _ h => h) fun n id i s hs =>
        hp n id i s (by simp [Tree.preorder, hs])
      obtain ⟨hl, h2⟩ := forall2_iff.1 h2
      exact ⟨[.op o parts.flatten i], by simp [transformNode, h1, Res.pure_eq], .op hl h2⟩
  obtain ⟨l, h1, h2⟩ := hv (.op o cs j) [] hσ
  simp only [transformNode] at h1
  obtain ⟨cs', h3, h4⟩ := Res.bind_eq_ok.1 h1
  simp only [Res.pure_eq, Res.ok.injEq] at h4
  subst h4
  rw [h3] at h
  exact ⟨_, h, h2⟩

/-! ## C31 -/

/-- One step: the first rule of the set that can be applied is applied. -/
def Step (eqV : V → V → Bool) (checker : Tree V → Bool) (rules : List (RewriteRule V)) (t t' : Tree V) :
    Prop :=
  ∃ pre r post, rules = pre ++ r :: post ∧ (∀ r' ∈ pre, applyRule eqV checker r' t = .ok none) ∧
    applyRule eqV checker r t = .ok (some t')

/-- `n` steps. -/
inductive Steps (eqV : V → V → Bool) (checker : Tree V → Bool) (rules : List (RewriteRule V)) :
    Nat → Tree V → Tree V → Prop where
  | zero {t} : Steps eqV checker rules 0 t t
  | succ {n t t' t''} : Step eqV checker rules t t' → Steps eqV checker rules n t' t'' →
      Steps eqV checker rules (n + 1) t t''

theorem applyFirst_some {eqV : V → V → Bool} {checker : Tree V → Bool} {rules : List (RewriteRule V)}
    {t t' : Tree V} (h : applyFirst eqV checker rules t = .ok (some t')) :
    Step eqV checker rules t t' := by
  induction rules with
  | nil => cases h
  | cons r rs ih =>
    simp only [applyFirst] at h
    obtain ⟨x, hx, h⟩ := Res.bind_eq_ok.1 h
    cases x with
    | some y => cases h; exact ⟨[], r, rs, rfl, by simp, hx⟩
    | none =>
      obtain ⟨pre, q, post, h1, h2, h3⟩ := ih h
      refine ⟨r :: pre, q, post, by simp [h1], ?_, h3⟩
      simp only [List.mem_cons, forall_eq_or_imp]
      exact ⟨hx, h2⟩

theorem applyFirst_none {eqV : V → V → Bool} {checker : Tree V → Bool} {rules : List (RewriteRule V)}
    {t : Tree V} (h : applyFirst eqV checker rules t = .ok none) :
    ∀ r ∈ rules, applyRule eqV checker r t = .ok none := by
  induction rules with
  | nil => simp
  | cons r rs ih =>
    simp only [applyFirst] at h
    obtain ⟨x, hx, h⟩ := Res.bind_eq_ok.1 h
    cases x with
    | some y => cases h
    | none =>
      simp only [List.mem_cons, forall_eq_or_imp]
      exact ⟨hx, ih h⟩

theorem applyLoop_spec {eqV : V → V → Bool} {checker : Tree V → Bool} {rules : List (RewriteRule V)}
    {cap : Nat} : ∀ (fuel counter : Nat) (t : Tree V), counter < cap → cap ≤ fuel + counter →
    ∀ r, applyLoop eqV checker rules cap fuel counter t = .ok r →
    ∃ t' n, r = some (t', counter + n) ∧ counter + n ≤ cap ∧ Steps eqV checker rules n t t' ∧
      (counter + n < cap → ∀ q ∈ rules, applyRule eqV checker q t' = .ok none) := by
  intro fuel
  induction fuel with
  | zero => intro counter t h1 h2; omega
  | succ fuel ih =>
    intro counter t h1 h2 r h
    simp only [applyLoop] at h
    obtain ⟨x, hx, h⟩ := Res.bind_eq_ok.1 h
    cases x with
    | none =>
      cases h
      exact ⟨t, 0, rfl, by omega, .zero, fun _ => applyFirst_none hx⟩
    | some t1 =>
      simp only at h
      have hstep := applyFirst_some hx
      split at h
      · rename_i hcap
        cases h
        exact ⟨t1, 1, rfl, by omega, .succ hstep .zero, fun h => by omega⟩
      · obtain ⟨t', n, rfl, h3, h4, h5⟩ := ih (counter + 1) t1 (by omega) (by omega) r h
        exact ⟨t', n + 1, by rw [Nat.add_assoc, Nat.add_comm 1 n], by omega, .succ hstep h4,
          fun hlt => h5 (by omega)⟩

/-- **C31** (partial).  With a cap of at least 1, `apply_ruleset` ends after at most
`cap` rounds of its loop (`fuel`); it makes at most `cap` rewrites, returns their
number, and if it stops below the cap no rule of the set can be applied to the
result.  The full statement includes the cap 0; see the witness. -/
theorem C31_partial (eqV : V → V → Bool) (checker : Tree V → Bool) (rules : List (RewriteRule V))
    (cap fuel : Nat) (hcap : 0 < cap) (hfuel : cap ≤ fuel) (t : Tree V) (r : Option (Tree V × Nat))
    (h : applyRuleset eqV checker rules cap fuel t = .ok r) :
    ∃ t' n, r = some (t', n) ∧ n ≤ cap ∧ Steps eqV checker rules n t t' ∧
      (n < cap → ∀ q ∈ rules, applyRule eqV checker q t' = .ok none) := by
  obtain ⟨t', n, h1, h2, h3, h4⟩ := applyLoop_spec fuel 0 t hcap (by simpa using hfuel) r h
  exact ⟨t', n, by simpa using h1, by simpa using h2, h3, fun hn => h4 (by simpa using hn)⟩

/-! ## C51 -/

theorem Replaced.means {L : Op → List V → Except ε V} {env : Str → Option V} {u s w u' : Tree V}
    {p : List Nat} (h : Replaced u p s w u') (hw : ∀ x, Means L env s x → Means L env w x) {x : V}
    (hu : Means L env u x) : Means L env u' x := by
  induction h generalizing x with
  | here => exact hw x hu
  | @child o cs ds p s c c' w i _ ih =>
    obtain ⟨vs, h1, h2⟩ := Means.op_iff.1 hu
    rw [Means.op_iff]
    refine ⟨vs, ?_, h2⟩
    have hlen : cs.length ≤ vs.length := by
      have := h1.length_eq
      simp at this
      omega
    obtain ⟨_, g1, g2⟩ := forall2_append h1
    have e : vs = vs.take cs.length ++ vs.drop cs.length := (List.take_append_drop _ _).symm
    rw [e]
    refine List.rel_append g1 ?_
    generalize vs.drop cs.length = tl at g2
    cases g2 with
    | cons g3 g4 => exact .cons (ih hw g3) g4

theorem Equal.means {eqV : V → V → Bool} {L : Op → List V → Except ε V} {env : Str → Option V}
    (hv : ∀ a b, eqV a b = true → a = b) (hL : ∀ o p args, o.id = p.id → L o args = L p args)
    {a b : Tree V} (h : Equal eqV a b) : ∀ x, Means L env b x → Means L env a x := by
  induction h with
  | refl => exact fun _ h => h
  | const h => intro x hx; cases hx; rw [hv _ _ h]; exact .const
  | var => intro x hx; cases hx with | var h => exact .var h
  | @op o p cs ds i j hl hid h ih =>
    intro x hx
    obtain ⟨vs, h1, h2⟩ := Means.op_iff.1 hx
    obtain ⟨hl', h1⟩ := forall2_iff.1 h1
    rw [Means.op_iff]
    refine ⟨vs, ?_, by rw [hL o p vs hid]; exact h2⟩
    refine forall2_iff.2 ⟨hl.trans hl', fun k hk => ih k hk _ (h1 k (hl ▸ hk))⟩

/-- A rule preserves values under `env`: whenever an instance of its left side has a
value, for an assignment under which the constraints hold, the same instance of its
right side has this value. -/
def Preserves (checker : Tree V → Bool) (L : Op → List V → Except ε V) (env : Str → Option V)
    (before : Tree V) (cs : List (Tree V)) (after : Tree V) : Prop :=
  ∀ σ g l w, Inst σ (fun i => i) before [l] → Inst σ g after [w] →
    (∀ n ∈ before.varNames, ¬ ListName n → ∃ x, σ n = some [x]) →
    (∀ c ∈ cs, ∃ c', Inst σ (fun i => i) c [c'] ∧ checker c' = true) →
    ∀ x, Means L env l x → Means L env w x

/-- A ruleset together with the rules as written, each of which preserves values. -/
def Sound (checker : Tree V → Bool) (L : Op → List V → Except ε V) (env : Str → Option V)
    (rules : List (RewriteRule V)) : Prop :=
  ∀ r ∈ rules, ∃ before cs after, Accepted before cs after r ∧
    (∀ c ∈ cs, ∀ n ∈ c.varNames, n ∈ before.varNames) ∧ (cs ≠ [] → before.varNames ≠ []) ∧
    Preserves checker L env before cs after

theorem step_means {checker : Tree V → Bool} {L : Op → List V → Except ε V} {env : Str → Option V}
    {rules : List (RewriteRule V)} (hs : Sound checker L env rules) {eqV : V → V → Bool}
    (hv : ∀ a b, eqV a b = true → a = b) (hL : ∀ o p args, o.id = p.id → L o args = L p args)
    {t t' : Tree V} (h : Step eqV checker rules t t') {x : V} (hx : Means L env t x) :
    Means L env t' x := by
  obtain ⟨pre, r, post, rfl, -, h⟩ := h
  obtain ⟨before, cs, after, hr, hcv, hne, hpres⟩ := hs r (by simp)
  obtain ⟨σ, p, s, l, w, h1, h2, h3, h4, h5, h6⟩ := C29_instance hr eqV checker t t' h
  refine Replaced.means h1 (fun y hy => ?_) hx
  refine hpres σ _ l w h2 h6 h4 ?_ y (Equal.means hv hL h3 y hy)
  intro c hc
  exact h5 hcv (hne (by rintro rfl; cases hc)) c hc

/-- **C51.** If every rule of a set preserves values, rewriting with the set does, for
any number of rewrites: if the expression has a value under `env`, the result has
the same value.  Equal constants must be the same value, and operators with the
same id the same meaning. -/
theorem C51_preserves {checker : Tree V → Bool} {L : Op → List V → Except ε V} {env : Str → Option V}
    {rules : List (RewriteRule V)} (hs : Sound checker L env rules) {eqV : V → V → Bool}
    (hv : ∀ a b, eqV a b = true → a = b) (hL : ∀ o p args, o.id = p.id → L o args = L p args)
    (cap fuel : Nat) (t t' : Tree V) (n : Nat)
    (h : applyRuleset eqV checker rules cap fuel t = .ok (some (t', n))) (x : V)
    (hx : Means L env t x) : Means L env t' x := by
  have key : ∀ fuel counter t, applyLoop eqV checker rules cap fuel counter t = .ok (some (t', n)) →
      Means L env t x → Means L env t' x := by
    intro fuel
    induction fuel with
    | zero => intro _ _ h; cases h
    | succ fuel ih =>
      intro counter t h hx
      simp only [applyLoop] at h
      obtain ⟨y, hy, h⟩ := Res.bind_eq_ok.1 h
      cases y with
      | none => cases h; exact hx
      | some t1 =>
        have h1 := step_means hs hv hL (applyFirst_some hy) hx
        simp only at h
        split at h
        · cases h; exact h1
        · exact ih _ _ h h1
  exact key fuel 0 t h hx

/-! ## Examples and witnesses -/

/-- The rule `sum([xs], x, [ys], x, [zs]) -> sum([xs], prod(2, x), [ys], [zs])`. -/
def dupRule : Option (RewriteRule Nat) :=
  match getPattern (.op osum [v "[xs]", v "x", v "[ys]", v "x", v "[zs]"] 0) [] with
  | .ok pat => getRule pat (.op osum [v "[xs]", .op oprod [k 2, v "x"] 0, v "[ys]", v "[zs]"] 0)
  | .error _ => none

/-- Apply it as often as possible, at most `cap` times. -/
def runDup (cap : Nat) (t : Tree Nat) : Option (Tree Nat × Nat) :=
  match dupRule with
  | some r =>
    match applyRuleset (· == ·) (fun _ => true) [r] cap cap t with
    | .ok x => x
    | _ => none
  | none => none

/-- `sum(7, 8, 7, 8)` becomes `sum(prod(2, 7), prod(2, 8))` after two rewrites; with a
cap of 1 it becomes `sum(prod(2, 7), 8, 8)`.  New nodes have the token number of the
sum. -/
example : runDup 10 (.op osum [.const 7 2, .const 8 4, .const 7 6, .const 8 8] 1)
    = some (.op osum [.op oprod [.const 2 1, .const 7 2] 1, .op oprod [.const 2 1, .const 8 4] 1] 1, 2) := by
  decide +kernel
example : runDup 1 (.op osum [.const 7 2, .const 8 4, .const 7 6, .const 8 8] 1)
    = some (.op osum [.op oprod [.const 2 1, .const 7 2] 1, .const 8 4, .const 8 8] 1, 1) := by
  decide +kernel

/-- `sum(x, [xs], prod(x))` with `x` bound to `y` and `[xs]` to `x, 1` becomes
`sum(y, x, 1, prod(y))`. -/
example : transformLoop (fun i => if i = 0 then some [v "y"] else some [v "x", k 1]) 6
    (.op osum [.var "x".toList 0 0, .var "[xs]".toList 1 0, .op oprod [.var "x".toList 0 0] 0] 0) 0
    = .ok (some (.op osum [v "y", v "x", k 1, .op oprod [v "y"] 0] 0)) := by rfl

/-- Sums and products of natural numbers. -/
def sumProd (o : Op) (args : List Nat) : Except Unit Nat :=
  if o.id = 1 then .ok args.sum else if o.id = 2 then .ok args.prod else .error ()

theorem sumProd_sum {env : Str → Option Nat} {l : List (Tree Nat)} {i x : Nat} :
    Means sumProd env (.op osum l i) x ↔ ∃ vs, List.Forall₂ (Means sumProd env) l vs ∧ vs.sum = x := by
  rw [Means.op_iff]
  refine exists_congr fun vs => and_congr_right fun _ => ?_
  show (Except.ok vs.sum : Except Unit Nat) = .ok x ↔ _
  rw [Except.ok.injEq]

theorem sumProd_prod {env : Str → Option Nat} {l : List (Tree Nat)} {i x : Nat} :
    Means sumProd env (.op oprod l i) x ↔ ∃ vs, List.Forall₂ (Means sumProd env) l vs ∧ vs.prod = x := by
  rw [Means.op_iff]
  refine exists_congr fun vs => and_congr_right fun _ => ?_
  show (Except.ok vs.prod : Except Unit Nat) = .ok x ↔ _
  rw [Except.ok.injEq]

theorem inst_op {σ : Str → Option (List (Tree V))} {g : Nat → Nat} {o : Op} {cs : List (Tree V)} {i : Nat}
    {l : List (Tree V)} (h : Inst σ g (.op o cs i) l) :
    ∃ parts, List.Forall₂ (Inst σ g) cs parts ∧ l = [.op o parts.flatten (g i)] := by
  cases h with
  | op hl h => exact ⟨_, forall2_iff.2 ⟨hl, h⟩, rfl⟩

theorem inst_var {σ : Str → Option (List (Tree V))} {g : Nat → Nat} {n : Str} {x i : Nat}
    {l : List (Tree V)} (h : Inst σ g (.var n x i) l) : σ n = some l := by
  cases h with
  | var h => exact h

/-- The hypothesis of `C51_preserves` for this rule: it preserves sums, whatever is
substituted. -/
example (checker : Tree Nat → Bool) (env : Str → Option Nat) :
    Sound checker sumProd env dupRule.toList := by
  intro r hr
  refine ⟨.op osum [v "[xs]", v "x", v "[ys]", v "x", v "[zs]"] 0, [],
    .op osum [v "[xs]", .op oprod [k 2, v "x"] 0, v "[ys]", v "[zs]"] 0, ⟨?_⟩, by simp, by simp, ?_⟩
  · unfold dupRule at hr
    split at hr
    · rename_i pat hp
      exact ⟨pat, hp, by simpa using hr⟩
    · cases hr
  · intro σ g l w hl hw hone _ x hx
    obtain ⟨a, ha⟩ := hone "x".toList (by decide +kernel) (by simp [ListName])
    obtain ⟨parts, h1, h2⟩ := inst_op hl
    rcases h1 with _ | ⟨i1, _ | ⟨i2, _ | ⟨i3, _ | ⟨i4, _ | ⟨i5, ⟨⟩⟩⟩⟩⟩⟩
    obtain ⟨parts', h1, h3⟩ := inst_op hw
    rcases h1 with _ | ⟨j1, _ | ⟨j2, _ | ⟨j3, _ | ⟨j4, ⟨⟩⟩⟩⟩⟩
    obtain ⟨parts'', h1, h4⟩ := inst_op j2
    rcases h1 with _ | ⟨m1, _ | ⟨m2, ⟨⟩⟩⟩
    cases m1
    subst h4
    have e1 := inst_var i1; have e2 := inst_var i2; have e3 := inst_var i3
    have e4 := inst_var i4; have e5 := inst_var i5
    have f1 := inst_var j1; have f3 := inst_var j3; have f4 := inst_var j4; have f2 := inst_var m2
    rw [e1] at f1; rw [e3] at f3; rw [e5] at f4; rw [ha] at e2 e4 f2
    cases e2; cases e4; cases f1; cases f2; cases f3; cases f4; cases h2; cases h3
    simp only [List.flatten_cons, List.flatten_nil, List.append_nil, List.nil_append,
      List.cons_append] at hx ⊢
    rw [sumProd_sum] at hx ⊢
    obtain ⟨vs, h1, rfl⟩ := hx
    obtain ⟨_, g1, g2⟩ := forall2_append h1
    generalize hA : vs.take _ = A at g1
    generalize hB : vs.drop _ = B at g2
    have hvs : vs = A ++ B := by rw [← hA, ← hB, List.take_append_drop]
    cases g2 with | @cons _ y _ B g2 g3 =>
    obtain ⟨_, g4, g5⟩ := forall2_append g3
    generalize hC : B.take _ = C at g4
    generalize hD : B.drop _ = D at g5
    have hB' : B = C ++ D := by rw [← hC, ← hD, List.take_append_drop]
    cases g5 with | @cons _ z _ D g5 g6 =>
    have hyz := Means.unique _ g2 g5
    subst hyz
    refine ⟨A ++ 2 * y :: (C ++ D), List.rel_append g1 (.cons ?_ (List.rel_append g4 g6)), ?_⟩
    · rw [sumProd_prod]
      exact ⟨[2, y], .cons .const (.cons g2 .nil), by simp⟩
    · rw [hvs, hB']
      simp only [List.sum_append, List.sum_cons]
      omega

/-- **C31** fails for cap 0: the rule `sum(x) -> sum(x)` is applied to `sum(1)` without
end. -/
def loopRule : RewriteRule Nat :=
  ⟨⟨.op osum [.var "x".toList 0 0] 0, fun _ => []⟩, .op osum [.var "x".toList 0 0] 0⟩

example : Accepted (.op osum [v "x"] 0) [] (.op osum [v "x"] 0) loopRule := by
  refine ⟨⟨.op osum [.var "x".toList 0 0] 0, fun _ => []⟩, rfl, ?_⟩
  rfl

theorem C31_cap0_witness (fuel : Nat) :
    applyRuleset (· == ·) (fun _ => true) [loopRule] 0 fuel (.op osum [k 1] 0) = .ok none := by
  have h1 : applyFirst (· == ·) (fun _ => true) [loopRule] (.op osum [k 1] 0)
      = .ok (some (.op osum [k 1] 0)) := by decide +kernel
  have : ∀ fuel counter, applyLoop (· == ·) (fun _ => true) [loopRule] 0 fuel counter (.op osum [k 1] 0)
      = .ok none := by
    intro fuel
    induction fuel with
    | zero => intro _; rfl
    | succ fuel ih =>
      intro counter
      simp only [applyLoop, h1, Res.bind_ok]
      rw [if_neg (by omega)]
      exact ih _
  exact this fuel 0

end Verif.RewriteProps
