import Verif.Lemmas.ShippedFit
import Verif.Lemmas.Simplification

/-!
# The constraints of the shipped rules can be evaluated
-/

namespace Verif
open TreeProps MatchProps RewriteProps
variable {V ε : Type}

mutual
/-- No list variables, and neither `type` nor `equal`. -/
def plainB : Tree V → Bool
  | .const _ _ => true
  | .var n _ _ => !isListName n
  | .op o cs _ => o.name != "type".toList && o.name != "equal".toList && plainsB cs
def plainsB : List (Tree V) → Bool
  | [] => true
  | c :: cs => plainB c && plainsB cs
end

mutual
/-- A constraint that can be evaluated whatever is put in. -/
def condB : Tree V → Bool
  | .const _ _ => true
  | .var n _ _ => !isListName n
  | .op o cs _ => propBuiltin.contains o &&
      ((o.name == "type".toList && cs.length == 1 && plainsB cs) ||
       (o.name == "equal".toList && cs.length == 2 && plainsB cs) ||
       (!special.contains o.name && (o.arity == .dyn || o.arity == .fixed cs.length) && condsB cs))
def condsB : List (Tree V) → Bool
  | [] => true
  | c :: cs => condB c && condsB cs
end

theorem plainB_mapVal {W : Type} (f : V → W) (t : Tree V) : plainB (t.mapVal f) = plainB t := by
  refine Tree.rec (motive_1 := fun t => plainB (t.mapVal f) = plainB t)
    (motive_2 := fun l => plainsB (l.map (Tree.mapVal f)) = plainsB l) ?_ ?_ ?_ ?_ ?_ t
  · intro v i; simp [plainB]
  · intro n x i; simp [plainB]
  · intro o cs i ih
    simp only [Tree.mapVal_op, plainB, ih]
  · rfl
  · intro c cs h1 h2
    simp only [List.map_cons, plainsB, h1, h2]

theorem plainsB_mapVal {W : Type} (f : V → W) (l : List (Tree V)) : plainsB (l.map (Tree.mapVal f)) = plainsB l := by
  induction l with
  | nil => rfl
  | cons c l ih => simp only [List.map_cons, plainsB, ih, plainB_mapVal]

theorem condB_mapVal {W : Type} (f : V → W) (t : Tree V) : condB (t.mapVal f) = condB t := by
  refine Tree.rec (motive_1 := fun t => condB (t.mapVal f) = condB t)
    (motive_2 := fun l => condsB (l.map (Tree.mapVal f)) = condsB l) ?_ ?_ ?_ ?_ ?_ t
  · intro v i; simp [condB]
  · intro n x i; simp [condB]
  · intro o cs i ih
    simp only [Tree.mapVal_op, condB, ih, List.length_map, plainsB_mapVal]
  · rfl
  · intro c cs h1 h2
    simp only [List.map_cons, condsB, h1, h2]

theorem plainsB_mem {l : List (Tree V)} (h : plainsB l = true) : ∀ c ∈ l, plainB c = true := by
  induction l with
  | nil => intro c hc; cases hc
  | cons d l ih =>
    simp only [plainsB, Bool.and_eq_true] at h
    intro c hc
    rcases List.mem_cons.1 hc with rfl | hc
    · exact h.1
    · exact ih h.2 c hc

theorem condsB_mem {l : List (Tree V)} (h : condsB l = true) : ∀ c ∈ l, condB c = true := by
  induction l with
  | nil => intro c hc; cases hc
  | cons d l ih =>
    simp only [condsB, Bool.and_eq_true] at h
    intro c hc
    rcases List.mem_cons.1 hc with rfl | hc
    · exact h.1
    · exact ih h.2 c hc

theorem BuiltIn.mem {o : Op} {n : Nat} (h : BuiltIn o n) : o ∈ propBuiltin ∧ o.name ∉ special := by
  obtain ⟨⟨q, hq, e⟩, -⟩ := h
  have key : ∀ (k : Nat) (q : Op), arithOps[k]? = some q → ({ q with id := k } : Op) ∈ propBuiltin ∧ q.name ∉ special := by
    have : ∀ x ∈ arithOps.zipIdx, ({ x.1 with id := x.2 } : Op) ∈ propBuiltin ∧ x.1.name ∉ special := by decide +kernel
    intro k q hk
    exact this (q, k) (List.mk_mem_zipIdx_iff_getElem?.2 hk)
  have h := key _ _ hq
  rw [← e] at h
  exact ⟨h.1, by rw [e]; exact h.2⟩

theorem special_ne {n : Str} (h : n ∉ special) : n ≠ "type".toList ∧ n ≠ "equal".toList := by
  constructor <;> (rintro rfl; exact h (by decide))

theorem builtIn_names {t : Tree V} (h : Verif.AllOps BuiltIn t) :
    TreeProps.AllOps (fun p => p.name ≠ "type".toList ∧ p.name ≠ "equal".toList) t := by
  induction h with
  | const => exact .const
  | var => exact .var
  | op h _ ih => exact .op (special_ne h.mem.2) ih

theorem builtIn_cond {t : Tree V} (h : Verif.AllOps BuiltIn t) : IsCond t := by
  induction h with
  | const => exact .const
  | var => exact .var
  | op h _ ih => exact .op h.mem.1 h.mem.2 h.2 ih

theorem flatten_single {P : Tree V → Prop} {parts : List (List (Tree V))} (h : ∀ x ∈ parts, ∃ u, x = [u] ∧ P u) :
    parts.flatten.length = parts.length ∧ ∀ u ∈ parts.flatten, P u := by
  induction parts with
  | nil => simp
  | cons x parts ih =>
    obtain ⟨u, rfl, hu⟩ := h x (by simp)
    obtain ⟨h1, h2⟩ := ih fun y hy => h y (by simp [hy])
    simp only [List.flatten_cons, List.length_append, List.length_singleton, List.length_cons, h1, List.cons_append,
      List.nil_append, List.mem_cons, forall_eq_or_imp]
    exact ⟨trivial, hu, h2⟩

/-- Variables stand for single expressions in the arithmetic context. -/
def BuiltSubst (σ : Str → Option (List (Tree V))) : Prop :=
  ∀ n l, ¬ ListName n → σ n = some l → ∃ x, l = [x] ∧ Verif.AllOps BuiltIn x

theorem plain_inst {σ : Str → Option (List (Tree V))} (hσ : BuiltSubst σ) {g : Nat → Nat} {t : Tree V} {ts : List (Tree V)}
    (ht : plainB t = true) (h : Inst σ g t ts) :
    ∃ u, ts = [u] ∧ TreeProps.AllOps (fun p => p.name ≠ "type".toList ∧ p.name ≠ "equal".toList) u := by
  induction h with
  | const => exact ⟨_, rfl, .const⟩
  | var h =>
    obtain ⟨x, rfl, hx⟩ := hσ _ _ (fun hl => by simp [plainB, isListName_iff'.2 hl] at ht) h
    exact ⟨x, rfl, builtIn_names hx⟩
  | @op o cs i parts hl _ ih =>
    simp only [plainB, Bool.and_eq_true, bne_iff_ne] at ht
    obtain ⟨h1, h2⟩ := flatten_single (parts := parts) fun x hx => by
      obtain ⟨k, hk, rfl⟩ := List.getElem_of_mem hx
      exact ih k (by omega) (plainsB_mem ht.2 _ (List.getElem_mem _))
    exact ⟨_, rfl, .op ht.1 h2⟩

theorem cond_inst {σ : Str → Option (List (Tree V))} (hσ : BuiltSubst σ) {g : Nat → Nat} {t : Tree V} {ts : List (Tree V)}
    (ht : condB t = true) (h : Inst σ g t ts) : ∃ u, ts = [u] ∧ IsCond u := by
  induction h with
  | const => exact ⟨_, rfl, .const⟩
  | var h =>
    obtain ⟨x, rfl, hx⟩ := hσ _ _ (fun hl => by simp [condB, isListName_iff'.2 hl] at ht) h
    exact ⟨x, rfl, builtIn_cond hx⟩
  | @op o cs i parts hl hi ih =>
    simp only [condB, Bool.and_eq_true, Bool.or_eq_true, beq_iff_eq, List.contains_iff_mem, Bool.not_eq_true'] at ht
    obtain ⟨hm, (⟨⟨h1, h2⟩, h3⟩ | ⟨⟨h1, h2⟩, h3⟩) | ⟨⟨h1, h2⟩, h3⟩⟩ := ht
    · obtain ⟨g1, g2⟩ := flatten_single (parts := parts) fun x hx => by
        obtain ⟨k, hk, rfl⟩ := List.getElem_of_mem hx
        exact plain_inst hσ (plainsB_mem h3 _ (List.getElem_mem _)) (hi k (by omega))
      match hp : parts.flatten, g1, g2 with
      | [a], g1, g2 => exact ⟨_, rfl, .type hm h1 (g2 a (by simp))⟩
      | [], g1, g2 => simp at g1; omega
      | _ :: _ :: _, g1, g2 => simp at g1; omega
    · obtain ⟨g1, g2⟩ := flatten_single (parts := parts) fun x hx => by
        obtain ⟨k, hk, rfl⟩ := List.getElem_of_mem hx
        exact plain_inst hσ (plainsB_mem h3 _ (List.getElem_mem _)) (hi k (by omega))
      match hp : parts.flatten, g1, g2 with
      | [a, b], g1, g2 => exact ⟨_, rfl, .equal hm h1 (g2 a (by simp)) (g2 b (by simp))⟩
      | [], g1, g2 => simp at g1; omega
      | [_], g1, g2 => simp at g1; omega
      | _ :: _ :: _ :: _, g1, g2 => simp at g1; omega
    · obtain ⟨g1, g2⟩ := flatten_single (parts := parts) fun x hx => by
        obtain ⟨k, hk, rfl⟩ := List.getElem_of_mem hx
        exact ih k (by omega) (condsB_mem h3 _ (List.getElem_mem _))
      refine ⟨_, rfl, .op hm ?_ ?_ g2⟩
      · intro hc
        rw [← List.contains_iff_mem, h1] at hc
        cases hc
      · rw [g1, ← hl]; exact h2

theorem isCond_checker (D : Doubles V) (arith : Op → List V → Except ε V) (ve : ε) {t : Tree V} (h : IsCond t) :
    ∃ b, propChecker D arith ve t = .ok b := by
  obtain ⟨t1, t2, h1, h2, -, h4⟩ := cond_key D arith ve h
  unfold propChecker
  simp only [h1, h2, Res.bind_ok]
  cases hr : treeReduce (propEvaluate D arith) (.listener ve) t2 [] with
  | ok v => exact ⟨_, rfl⟩
  | error e =>
    obtain ⟨e, q⟩ := e
    obtain ⟨e', rfl⟩ := h4 _ _ _ hr
    exact ⟨_, rfl⟩

namespace Shipped

theorem conds_ok : ∀ k, ∀ p ∈ partsOf k, ∀ c ∈ p.conds, condB c = true
  | 0 => by decide +kernel
  | 1 => by decide +kernel
  | 2 => by decide +kernel
  | 3 => by decide +kernel
  | 4 => by decide +kernel
  | 5 => by decide +kernel
  | 6 => by decide +kernel
  | _ + 7 => by intro p hp; cases hp

end Shipped
end Verif
