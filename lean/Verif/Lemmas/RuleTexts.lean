import Verif.Lemmas.RuleConditions
import Verif.Model.ShippedRules
import Verif.Model.RuleNumbers

/-!
# Rules as texts, and what is to be shown of each of them
-/

namespace Verif.Rules
open Verif RewriteProps Topology
variable {I : Interp} {ε V W : Type}

/-! ## Reading rules -/

/-- The trees of a rule: `parse_rule` without its last step. -/
def ruleParts (parse : Str → Res (Option (Tree V))) (s : Str) :
    Res (Option (Tree V × List (Tree V) × Tree V)) := do
  let w := strstr s " WHERE ".toList
  match strstr s "->".toList with
  | none => pure none
  | some a =>
    let buf := s.set a '\x00'
    let buf := match w with
      | some k => buf.set k '\x00'
      | none => buf
    match ← parseConstraints parse maxConstraints (w.map fun k => cstr (buf.drop (k + 7))) with
    | none => pure none
    | some cs =>
      match ← parse (cstr buf) with
      | none => pure none
      | some l =>
        match ← parse (cstr (buf.drop (a + 2))) with
        | none => pure none
        | some r => pure (some (l, cs, r))

theorem parseRule_parts (parse : Str → Res (Option (Tree V))) (s : Str) {l r : Tree V} {cs : List (Tree V)}
    (h : ruleParts parse s = .ok (some (l, cs, r))) :
    parseRule parse s = match getPattern l cs with
      | .error _ => pure none
      | .ok pat => pure (getRule pat r) := by
  unfold ruleParts at h
  unfold parseRule
  cases hs : strstr s "->".toList with
  | none => simp only [hs] at h; cases h
  | some a =>
   cases hw : strstr s " WHERE ".toList <;>
   · simp only [hs, hw, Option.map_some, Option.map_none] at h ⊢
     obtain ⟨x, hx, h⟩ := Res.bind_eq_ok.1 h
     rw [hx]
     cases x with
     | none => cases h
     | some x =>
       simp only at h
       obtain ⟨y, hy, h⟩ := Res.bind_eq_ok.1 h
       rw [Res.bind_ok]
       simp only
       rw [hy]
       cases y with
       | none => cases h
       | some y =>
         simp only at h
         obtain ⟨z, hz, h⟩ := Res.bind_eq_ok.1 h
         rw [Res.bind_ok]
         simp only
         rw [hz]
         cases z with
         | none => cases h
         | some z => cases h; rfl

/-- Parsers over different numbers that agree. -/
def Natural (f : V → W) (parse : Str → Res (Option (Tree V))) (parse' : Str → Res (Option (Tree W))) : Prop :=
  ∀ s r, parse s = .ok r → parse' s = .ok (r.map (Tree.mapVal f))

theorem constraints_natural {f : V → W} {parse : Str → Res (Option (Tree V))} {parse' : Str → Res (Option (Tree W))}
    (hp : Natural f parse parse') (n : Nat) : ∀ s r, parseConstraintsLoop parse n s = .ok r →
    parseConstraintsLoop parse' n s = .ok (r.map (List.map (Tree.mapVal f))) := by
  induction n with
  | zero => intro s r h; cases h
  | succ n ih =>
    intro s r h
    unfold parseConstraintsLoop at h ⊢
    simp only at h ⊢
    obtain ⟨x, hx, h⟩ := Res.bind_eq_ok.1 h
    rw [hp _ _ hx, Res.bind_ok]
    cases x with
    | none => cases h; rfl
    | some t =>
      simp only [Option.map_some] at h ⊢
      split at h
      · rename_i hn
        rw [if_pos hn]
        cases h; rfl
      · rename_i hn
        rw [if_neg hn]
        split at h
        · cases h; simp [Res.pure_eq]
        · obtain ⟨y, hy, h⟩ := Res.bind_eq_ok.1 h
          rw [ih _ _ hy, Res.bind_ok]
          cases y with
          | none => cases h; rfl
          | some ts => cases h; rfl

theorem constraints_natural' {f : V → W} {parse : Str → Res (Option (Tree V))} {parse' : Str → Res (Option (Tree W))}
    (hp : Natural f parse parse') {n : Nat} {s : Option Str} {r} (h : parseConstraints parse n s = .ok r) :
    parseConstraints parse' n s = .ok (r.map (List.map (Tree.mapVal f))) := by
  unfold parseConstraints at h ⊢
  cases s with
  | none => cases h; rfl
  | some s => exact constraints_natural hp _ _ _ h

theorem ruleParts_natural {f : V → W} {parse : Str → Res (Option (Tree V))} {parse' : Str → Res (Option (Tree W))}
    (hp : Natural f parse parse') {s : Str} {l r : Tree V} {cs : List (Tree V)}
    (h : ruleParts parse s = .ok (some (l, cs, r))) :
    ruleParts parse' s = .ok (some (l.mapVal f, cs.map (Tree.mapVal f), r.mapVal f)) := by
  unfold ruleParts at h ⊢
  cases hs : strstr s "->".toList with
  | none => simp only [hs] at h; cases h
  | some a =>
    simp only [hs] at h ⊢
    obtain ⟨x, hx, h⟩ := Res.bind_eq_ok.1 h
    cases x with
    | none => cases h
    | some x =>
      rw [constraints_natural' hp hx]
      simp only at h
      obtain ⟨y, hy, h⟩ := Res.bind_eq_ok.1 h
      rw [Res.bind_ok, Option.map_some]
      dsimp only
      rw [hp _ _ hy]
      cases y with
      | none => cases h
      | some y =>
        simp only at h
        obtain ⟨z, hz, h⟩ := Res.bind_eq_ok.1 h
        rw [Res.bind_ok]
        simp only [Option.map_some]
        rw [hp _ _ hz]
        cases z with
        | none => cases h
        | some z => cases h; rfl

/-- Which trees make a rule. -/
theorem accepted_of {l r : Tree V} {cs : List (Tree V)} (h1 : (addNew [] l.names).length ≤ maxMappedVars)
    (h2 : cs.length ≤ maxConstraints) (h3 : ∀ n ∈ r.names, n ∈ l.names) :
    ∃ pat rule, getPattern l cs = .ok pat ∧ getRule pat r = some rule := by
  have h4 : ∀ (cs : List (Tree V)) (vars : List Str) (cs0 : Nat → List (Tree V)),
      (∀ k, (cs0 k).length + cs.length ≤ maxConstraints) → ∃ cs1, addConstraints vars cs0 cs = some cs1 := by
    intro cs
    induction cs with
    | nil => intro vars cs0 _; exact ⟨_, rfl⟩
    | cons c cs ih =>
      intro vars cs0 h
      simp only [addConstraints]
      rw [if_neg]
      · refine ih _ _ fun k => ?_
        have := h k
        simp only [List.length_cons] at this
        split
        · rename_i e; subst e; simp only [List.length_append, List.length_singleton]; omega
        · omega
      · have := h (triggerId vars (copyIds vars c))
        simp only [List.length_cons] at this
        omega
  obtain ⟨cs1, hcs⟩ := h4 cs (addNew [] l.names) (fun _ => []) (by simpa using h2)
  have hp : getPattern l cs = .ok ⟨l.withIds (addNew [] l.names).idxOf, cs1⟩ := by
    unfold getPattern
    rw [listVariables_ok h1]
    simp only [hcs, if_true]
  suffices h : ∃ rule, getRule ⟨l.withIds (addNew [] l.names).idxOf, cs1⟩ r = some rule by
    obtain ⟨rule, h⟩ := h
    exact ⟨_, rule, hp, h⟩
  have h5 : (addNew [] r.names).length ≤ maxMappedVars := by
    refine le_trans ?_ h1
    refine List.Subperm.length_le (List.subperm_of_subset (addNew_nodup (by simp)) ?_)
    intro n hn
    rw [addNew_mem] at hn ⊢
    simp only [List.not_mem_nil, false_or] at hn ⊢
    exact h3 n hn
  have hall : ((addNew [] r.names).all fun n => occurs n (Tree.withIds (addNew [] l.names).idxOf l)) = true := by
    simp only [List.all_eq_true, occurs_iff, withIds_names]
    intro n hn
    rw [addNew_mem] at hn
    simp only [List.not_mem_nil, false_or] at hn
    exact h3 n hn
  unfold getRule
  simp only [listVariables_ok h5, Bool.true_and]
  by_cases hc : countVars r > 0
  · simp only [hc, if_true]
    rw [if_pos hall]
    exact ⟨_, rfl⟩
  · simp only [hc, if_false, if_true]
    exact ⟨_, rfl⟩

theorem names_mapVal (f : V → W) (t : Tree V) : (t.mapVal f).names = t.names := by
  induction t using Tree.induct with
  | hc c i => simp [Tree.names]
  | hv n x i => simp [Tree.names]
  | ho o cs i ih =>
    simp only [Tree.mapVal_op, Tree.names]
    induction cs with
    | nil => rfl
    | cons c cs ihl =>
      simp only [List.map_cons, Tree.namesList]
      rw [ih c (by simp), ihl fun c hc => ih c (by simp [hc])]

/-! ## Numbers in rules -/

theorem ruleParser_natural (f : V → W) (g : ℚ → V) :
    Natural f (ruleParser g) (ruleParser fun q => f (g q)) := by
  intro s r h
  unfold ruleParser at h ⊢
  obtain ⟨c, hc, h⟩ := Res.bind_eq_ok.1 h
  rw [hc, Res.bind_ok]
  have := parseEasy_val f (fun s => (decimal s).map g) c s
  simp only [Option.map_map] at this
  rw [h] at this
  exact this

/-! ## Data of a rule -/

/-- The conditions of the shipped rules; those that are not needed for the
correctness of a rule are not looked at. -/
inductive Cond where
  | isConst (n : String)
  | notOp (n : String)
  | opposite (x y : String)
  | even (y : String)
  | other (p : Pat)

def Cond.pat : Cond → Pat
  | .isConst n => .app 60 [.app 58 [.v n], .app 62 []]
  | .notOp n => .app 61 [.app 58 [.v n], .app 64 []]
  | .opposite x y => .app 69 [.app 59 [.v y, .app 12 [.v x]], .app 59 [.v x, .app 12 [.v y]]]
  | .even y => .app 60 [.app 10 [.v y, .num 2], .num 0]
  | .other p => p

/-- What a condition means for the values. -/
def Cond.Holds (I : Interp) (σ : String → List (Tree ℝ)) : Cond → Prop
  | .isConst n => ∀ a env, σ n = [a] → D I a env → ∃ c l, a = .const c l
  | .notOp n => ∀ a env, σ n = [a] → D I a env → (∃ c l, a = .const c l) ∨ ∃ m x l, a = .var m x l
  | .opposite x y => ∀ a b env, σ x = [a] → σ y = [b] → D I a env → D I b env → va I b env = -va I a env
  | .even y => ∀ a env, σ y = [a] → D I a env → ∃ n : ℤ, va I a env = 2 * n
  | .other _ => True

/-- A rule: its text, its sides, its conditions. -/
structure RuleData where
  text : String
  left : Pat
  right : Pat
  conds : List Cond := []

mutual
/-- Variables of a term. -/
def Pat.vars : Pat → List String
  | .num _ => []
  | .v n => [n]
  | .app _ ps => Pat.varsList ps
  | .deriv p z => p.vars ++ [z]
def Pat.varsList : List Pat → List String
  | [] => []
  | p :: ps => p.vars ++ Pat.varsList ps
end

def Pat.isApp : Pat → Bool
  | .app _ _ => true
  | .deriv _ _ => true
  | _ => false

/-- Variables for single expressions are bound to single expressions. -/
def Singles (p : Pat) (σ : String → List (Tree ℝ)) : Prop :=
  ∀ n ∈ p.vars, isListName n.toList = false → ∃ a, σ n = [a]

/-- Where the left side has a value the right side has the same value. -/
def RuleData.Good (I : Interp) (r : RuleData) : Prop :=
  ∀ σ, Singles r.left σ → (∀ c ∈ r.conds, c.Holds I σ) →
    ∀ env, PD I σ r.left env → PD I σ r.right env ∧ PV I σ r.right env = PV I σ r.left env

/-- Where both sides have values these are equal. -/
def RuleData.Fair (I : Interp) (r : RuleData) : Prop :=
  ∀ σ, Singles r.left σ → (∀ c ∈ r.conds, c.Holds I σ) →
    ∀ env, PD I σ r.left env → PD I σ r.right env → PV I σ r.right env = PV I σ r.left env

/-- The text of a rule is read as what the data say. -/
def RuleData.check (r : RuleData) : Bool :=
  match ruleParts (ruleParser fun q => q) r.text.toList with
  | .ok (some (l, cs, w)) =>
    same l r.left && sames cs (r.conds.map Cond.pat) && same w r.right && r.left.isApp &&
    decide ((addNew [] l.names).length ≤ maxMappedVars) && decide (cs.length ≤ maxConstraints) &&
    (w.names.all fun n => l.names.contains n) &&
    (cs.isEmpty || !l.names.isEmpty) && (cs.all fun c => c.names.all fun n => l.names.contains n)
  | _ => false

theorem same_cast (p : Pat) : ∀ t : Tree ℚ, same t p = true → Same RatCast (t.mapVal fun q : ℚ => (q : ℝ)) p := by
  induction p using Pat.induct with
  | h1 q =>
    intro t h
    cases t with
    | const c i => simp only [same, beq_iff_eq] at h; simp only [Tree.mapVal_const, Same, RatCast, h]
    | var => simp [same] at h
    | op => simp [same] at h
  | h2 m =>
    intro t h
    cases t with
    | const => simp [same] at h
    | var n x i => simp only [same, beq_iff_eq] at h; simp only [Tree.mapVal_var, Same, h]
    | op => simp [same] at h
  | h3 k ps ih =>
    intro t h
    cases t with
    | const => simp [same] at h
    | var => simp [same] at h
    | op o cs i =>
      simp only [same, Bool.and_eq_true, bne_iff_ne, beq_iff_eq] at h
      obtain ⟨⟨⟨h1, h2⟩, h3⟩, h4⟩ := h
      simp only [Tree.mapVal_op, Same]
      refine ⟨h1, h2, h3, ?_⟩
      clear h3 h2 h1
      induction ps generalizing cs with
      | nil =>
        cases cs with
        | nil => simp [Sames]
        | cons => simp [sames] at h4
      | cons p ps ihl =>
        cases cs with
        | nil => simp [sames] at h4
        | cons c cs =>
          simp only [sames, Bool.and_eq_true] at h4
          simp only [List.map_cons, Sames]
          exact ⟨ih p (by simp) c h4.1, ihl (fun p hp => ih p (by simp [hp])) cs h4.2⟩
  | h4 p z ih =>
    intro t h
    cases t with
    | const => simp [same] at h
    | var => simp [same] at h
    | op o cs i =>
      unfold same at h
      split at h
      · cases ‹Tree.op _ _ _ = _›
      · cases ‹Tree.op _ _ _ = _›
      · cases ‹Pat.deriv _ _ = _›
      · rename_i o' c n x j i' p' z' e1 e2
        cases e1
        cases e2
        simp only [Bool.and_eq_true, beq_iff_eq, Bool.not_eq_true'] at h
        obtain ⟨⟨⟨⟨⟨h1, h2⟩, h3⟩, h4⟩, h5⟩, h6⟩ := h
        simp only [Tree.mapVal_op, Same]
        exact ⟨h1, h2, h3, h4, c.mapVal _, x, j, by simp [h5], ih c h6⟩
      · cases h

theorem Same.names {R : ℝ → ℚ → Prop} (p : Pat) : ∀ {t : Tree ℝ}, Same R t p → t.names = p.vars.map String.toList := by
  induction p using Pat.induct with
  | h1 q =>
    intro t h
    cases t with
    | const c i => rfl
    | var => simp [Same] at h
    | op => simp [Same] at h
  | h2 m =>
    intro t h
    cases t with
    | const => simp [Same] at h
    | var n x i => simp only [Same] at h; simp [Tree.names, Pat.vars, h]
    | op => simp [Same] at h
  | h3 k ps ih =>
    intro t h
    cases t with
    | const => simp [Same] at h
    | var => simp [Same] at h
    | op o cs i =>
      simp only [Same] at h
      obtain ⟨-, -, -, h⟩ := h
      simp only [Tree.names, Pat.vars]
      induction ps generalizing cs with
      | nil =>
        cases cs with
        | nil => rfl
        | cons => simp [Sames] at h
      | cons p ps ihl =>
        cases cs with
        | nil => simp [Sames] at h
        | cons c cs =>
          simp only [Sames] at h
          simp only [Tree.namesList, Pat.varsList, List.map_append]
          rw [ih p (by simp) h.1, ihl (fun p hp => ih p (by simp [hp])) cs h.2]
  | h4 p z ih =>
    intro t h
    cases t with
    | const => simp [Same] at h
    | var => simp [Same] at h
    | op o cs i =>
      simp only [Same] at h
      obtain ⟨-, -, -, -, c, x, j, rfl, h⟩ := h
      simp [Tree.names, Tree.namesList, Pat.vars, ih h]

theorem sames_forall {cs : List (Tree ℚ)} {ps : List Pat} (h : sames cs ps = true) :
    List.Forall₂ (fun c p => Same RatCast c p) (cs.map (Tree.mapVal fun q : ℚ => (q : ℝ))) ps := by
  induction cs generalizing ps with
  | nil =>
    cases ps with
    | nil => exact .nil
    | cons => simp [sames] at h
  | cons c cs ih =>
    cases ps with
    | nil => simp [sames] at h
    | cons p ps =>
      simp only [sames, Bool.and_eq_true] at h
      exact .cons (same_cast p c h.1) (ih h.2)

/-! ## Application of a rule -/

theorem inst_of_single {σ : Str → Option (List (Tree ℝ))} {g : Nat → Nat} {R : ℝ → ℚ → Prop} {m : String}
    {t : Tree ℝ} {ts : List (Tree ℝ)} (h : Same R t (.v m)) (hi : Inst σ g t ts) : sub σ m = ts := by
  cases hi with
  | const => simp [Same] at h
  | op => simp [Same] at h
  | var h' =>
    simp only [Same] at h
    subst h
    simp [sub, h']

theorem inst_app {σ : Str → Option (List (Tree ℝ))} {g : Nat → Nat} {R : ℝ → ℚ → Prop} {k : Nat} {ps : List Pat}
    {t : Tree ℝ} {ts : List (Tree ℝ)} (h : Same R t (.app k ps)) (hi : Inst σ g t ts) :
    ∃ cs parts i, ts = [.op (opAt k) parts.flatten i] ∧ Sames R cs ps ∧ List.Forall₂ (Inst σ g) cs parts := by
  cases hi with
  | const => simp [Same] at h
  | var => simp [Same] at h
  | @op o cs i parts hl hc =>
    simp only [Same] at h
    obtain ⟨-, -, h3, h4⟩ := h
    exact ⟨cs, parts, g i, by rw [opAt_eq h3], h4, forall2_iff.2 ⟨hl, hc⟩⟩

theorem inst_args1 {σ : Str → Option (List (Tree ℝ))} {g : Nat → Nat} {R : ℝ → ℚ → Prop} {k : Nat} {p : Pat}
    {t : Tree ℝ} {ts : List (Tree ℝ)} (h : Same R t (.app k [p])) (hi : Inst σ g t ts) :
    ∃ c a i, ts = [.op (opAt k) a i] ∧ Same R c p ∧ Inst σ g c a := by
  obtain ⟨cs, parts, i, rfl, hs, hf⟩ := inst_app h hi
  match cs, hs with
  | [c], hs =>
    cases hf with
    | @cons _ a _ _ h1 h2 =>
      cases h2
      simp only [Sames, and_true] at hs
      exact ⟨c, a, i, by simp, hs, h1⟩
  | [], hs => simp [Sames] at hs
  | _ :: _ :: _, hs => simp [Sames] at hs

theorem inst_args2 {σ : Str → Option (List (Tree ℝ))} {g : Nat → Nat} {R : ℝ → ℚ → Prop} {k : Nat} {p q : Pat}
    {t : Tree ℝ} {ts : List (Tree ℝ)} (h : Same R t (.app k [p, q])) (hi : Inst σ g t ts) :
    ∃ c d a b i, ts = [.op (opAt k) (a ++ b) i] ∧ Same R c p ∧ Inst σ g c a ∧ Same R d q ∧ Inst σ g d b := by
  obtain ⟨cs, parts, i, rfl, hs, hf⟩ := inst_app h hi
  match cs, hs with
  | [c, d], hs =>
    cases hf with
    | @cons _ a _ _ h1 h2 =>
      cases h2 with
      | @cons _ b _ _ h2 h3 =>
        cases h3
        simp only [Sames, and_true] at hs
        exact ⟨c, d, a, b, i, by simp, hs.1, h1, hs.2, h2⟩
  | [], hs => simp [Sames] at hs
  | [_], hs => simp [Sames] at hs
  | _ :: _ :: _ :: _, hs => simp [Sames] at hs

theorem inst_args0 {σ : Str → Option (List (Tree ℝ))} {g : Nat → Nat} {R : ℝ → ℚ → Prop} {k : Nat}
    {t : Tree ℝ} {ts : List (Tree ℝ)} (h : Same R t (.app k [])) (hi : Inst σ g t ts) :
    ∃ i, ts = [.op (opAt k) [] i] := by
  obtain ⟨cs, parts, i, rfl, hs, hf⟩ := inst_app h hi
  match cs, hs with
  | [], hs => cases hf; exact ⟨i, by simp⟩
  | _ :: _, hs => simp [Sames] at hs

theorem inst_num {σ : Str → Option (List (Tree ℝ))} {g : Nat → Nat} {q : ℚ}
    {t : Tree ℝ} {ts : List (Tree ℝ)} (h : Same RatCast t (.num q)) (hi : Inst σ g t ts) :
    ∃ i, ts = [.const (q : ℝ) i] := by
  cases hi with
  | const => simp only [Same, RatCast] at h; subst h; exact ⟨_, rfl⟩
  | var => simp [Same] at h
  | op => simp [Same] at h

variable {arith : Op → List ℝ → Except ε ℝ} {ve : ε}

theorem Cond.holds (hI : I.Right) (hf : Follows I arith) (c : Cond) {σ : Str → Option (List (Tree ℝ))} {g : Nat → Nat}
    {t t' : Tree ℝ} (h : Same RatCast t c.pat) (hi : Inst σ g t [t']) (hc : realChecker arith ve t' = true) :
    c.Holds I (sub σ) := by
  cases c with
  | isConst n =>
    intro a env ha hd
    obtain ⟨c, d, x, y, i, he, h1, h2, h3, h4⟩ := inst_args2 h hi
    obtain ⟨c', x', j, rfl, h5, h6⟩ := inst_args1 h1 h2
    obtain ⟨k, rfl⟩ := inst_args0 h3 h4
    have := inst_of_single h5 h6
    rw [ha] at this
    subst this
    cases he
    exact check_isConst (hd.quiet hI) hc
  | notOp n =>
    intro a env ha hd
    obtain ⟨c, d, x, y, i, he, h1, h2, h3, h4⟩ := inst_args2 h hi
    obtain ⟨c', x', j, rfl, h5, h6⟩ := inst_args1 h1 h2
    obtain ⟨k, rfl⟩ := inst_args0 h3 h4
    have := inst_of_single h5 h6
    rw [ha] at this
    subst this
    cases he
    exact check_notOp (hd.quiet hI) hc
  | opposite x y =>
    intro a b env ha hb hda hdb
    obtain ⟨c1, c2, t1, t2, i, he, h1, h2, h3, h4⟩ := inst_args2 h hi
    obtain ⟨c3, c4, t3, t4, j, rfl, h5, h6, h7, h8⟩ := inst_args2 h1 h2
    obtain ⟨c5, c6, t5, t6, k, rfl, h9, h10, h11, h12⟩ := inst_args2 h3 h4
    obtain ⟨c7, t7, l, rfl, h13, h14⟩ := inst_args1 h7 h8
    obtain ⟨c8, t8, m, rfl, h15, h16⟩ := inst_args1 h11 h12
    have e1 := inst_of_single h5 h6
    have e2 := inst_of_single h9 h10
    have e3 := inst_of_single h13 h14
    have e4 := inst_of_single h15 h16
    rw [ha] at e2 e3
    rw [hb] at e1 e4
    subst e1; subst e2; subst e3; subst e4
    cases he
    have neg : ∀ {u : Tree ℝ} {i : Nat}, D I u env → Val I (.op (opAt 12) [u] i) env (-va I u env) := by
      intro u i hu
      simp only [Val, opAt_i12, hI.deriv_eq]
      refine .inr ⟨by decide, [va I u env], Vals.single.2 ⟨_, rfl, (val_iff hI).2 ⟨hu, rfl⟩⟩, ?_⟩
      rw [fn_neg hI]
    rcases check_opposite (hda.quiet hI) (hdb.quiet hI) hc with h | h
    · exact ((val_iff hI).1 ((Equal.of_treeEquals _ _ h).val (neg hda))).2.symm
    · have := ((val_iff hI).1 ((Equal.of_treeEquals _ _ h).val (neg hdb))).2
      linarith
  | even y =>
    intro a env ha hd
    obtain ⟨c, d, x, y, i, he, h1, h2, h3, h4⟩ := inst_args2 h hi
    obtain ⟨c3, c4, t3, t4, j, rfl, h5, h6, h7, h8⟩ := inst_args2 h1 h2
    obtain ⟨k, rfl⟩ := inst_num h3 h4
    obtain ⟨l, rfl⟩ := inst_num h7 h8
    have := inst_of_single h5 h6
    rw [ha] at this
    subst this
    cases he
    refine check_even hI hf ((val_iff hI).2 ⟨hd, rfl⟩) (ve := ve) (i := l) (j := j) (k := k) (l := i) ?_
    simpa using hc
  | other p => trivial

theorem Inst.sub_names {σ : Str → Option (List (Tree ℝ))} {p : Pat} {l : Tree ℝ} (h : Same RatCast l p)
    (hs : ∀ n ∈ l.varNames, ¬ ListName n → ∃ x, σ n = some [x]) : Singles p (sub σ) := by
  intro n hn hl
  have : n.toList ∈ l.varNames := by
    rw [varNames_eq, Same.names p h]
    exact List.mem_map_of_mem hn
  obtain ⟨x, hx⟩ := hs _ this (by rw [← isListName_iff, hl]; simp)
  exact ⟨x, by simp [sub, hx]⟩

/-- What happens when a rule with checked data is applied. -/
theorem RuleData.applied (hI : I.Right) (r : RuleData) (hr : r.check = true) :
    ∃ rule : RewriteRule ℝ, parseRule (ruleParser fun q : ℚ => (q : ℝ)) r.text.toList = .ok (some rule) ∧
    ∀ (ε : Type) (arith : Op → List ℝ → Except ε ℝ) (ve : ε), Follows I arith →
    ∀ t t', applyRule eqR (realChecker arith ve) rule t = .ok (some t') →
    ∃ σ p s w, Replaced t p s w t' ∧ (∀ n x i, s ≠ .var n x i) ∧ Singles r.left σ ∧
      (∀ c ∈ r.conds, c.Holds I σ) ∧
      (∀ env v, Val I s env v ↔ PD I σ r.left env ∧ [v] = PV I σ r.left env) ∧
      (∀ env v, Val I w env v ↔ PD I σ r.right env ∧ [v] = PV I σ r.right env) ∧
      ∃ τ b l, σ = sub τ ∧ Same RatCast b r.left ∧ Inst τ (fun i => i) b [l] ∧ Equal eqR l s ∧
        ∀ n ∈ b.names, ¬ ListName n → ∃ x, τ n = some [x] := by
  unfold RuleData.check at hr
  split at hr
  · rename_i l cs w hp
    simp only [Bool.and_eq_true, decide_eq_true_eq, List.all_eq_true, List.contains_iff_mem, Bool.or_eq_true,
      List.isEmpty_iff, Bool.not_eq_true'] at hr
    obtain ⟨⟨⟨⟨⟨⟨⟨⟨h1, h2⟩, h3⟩, h4⟩, h5⟩, h6⟩, h7⟩, h8⟩, h9⟩ := hr
    have hp' := ruleParts_natural (ruleParser_natural (fun q : ℚ => (q : ℝ)) (fun q => q)) hp
    have hl := same_cast _ _ h1
    have hw := same_cast _ _ h3
    have hcs := sames_forall h2
    obtain ⟨pat, rule, hpat, hrule⟩ := accepted_of
      (l := l.mapVal fun q : ℚ => (q : ℝ)) (r := w.mapVal fun q : ℚ => (q : ℝ)) (cs := cs.map (Tree.mapVal fun q : ℚ => (q : ℝ)))
      (by rw [names_mapVal]; exact h5) (by rw [List.length_map]; exact h6)
      (by rw [names_mapVal, names_mapVal]; exact h7)
    refine ⟨rule, ?_, ?_⟩
    · rw [parseRule_parts _ _ hp', hpat]
      simp only [hrule]
      rfl
    · intro ε arith ve hf t t' ht
      obtain ⟨σ, p, s, k, x, g1, g2, g3, g4, g5, g6⟩ := C29_instance ⟨pat, hpat, hrule⟩ _ _ t t' ht
      have hS : ∀ n ∈ (l.mapVal fun q : ℚ => (q : ℝ)).names, ¬ ListName n → ∃ x, σ n = some [x] := by
        rw [← varNames_eq]; exact g4
      refine ⟨sub σ, p, s, x, g1, ?_, Inst.sub_names hl g4, ?_, ?_, ?_, σ, _, k, rfl, hl, g2, g3, hS⟩
      · rintro n y i rfl
        have : ∃ o ds j, k = .op o ds j := by
          cases hq : r.left with
          | app k ps =>
            rw [hq] at hl
            obtain ⟨_, _, _, h, -⟩ := inst_app hl g2
            exact ⟨_, _, _, (List.cons.inj h).1⟩
          | deriv p z =>
            rw [hq] at hl
            generalize hk : [k] = ks at g2
            clear hpat hp' hrule ht
            generalize (l.mapVal fun q : ℚ => (q : ℝ)) = lr at *
            cases g2 with
            | const => simp [Same] at hl
            | op => exact ⟨_, _, _, (List.cons.inj hk).1⟩
            | var => simp [Same] at hl
          | num q => rw [hq] at h4; cases h4
          | v n => rw [hq] at h4; cases h4
        obtain ⟨o, ds, j, rfl⟩ := this
        cases g3
      · intro c hc
        have hv : ∀ c ∈ cs.map (Tree.mapVal fun q : ℚ => (q : ℝ)), ∀ n ∈ c.varNames,
            n ∈ (l.mapVal fun q : ℚ => (q : ℝ)).varNames := by
          intro c hc n hn
          obtain ⟨c, hc', rfl⟩ := List.mem_map.1 hc
          rw [varNames_eq, names_mapVal] at hn ⊢
          exact h9 c hc' n hn
        obtain ⟨i, hi, rfl⟩ := List.mem_iff_getElem.1 hc
        obtain ⟨hl1, hl2⟩ := forall2_iff.1 hcs
        have hi' : i < (cs.map (Tree.mapVal fun q : ℚ => (q : ℝ))).length := by
          rw [hl1, List.length_map]; exact hi
        have hne : (l.mapVal fun q : ℚ => (q : ℝ)).varNames ≠ [] := by
          rw [varNames_eq, names_mapVal]
          rcases h8 with h | h
          · subst h; simp at hi'
          · intro e; rw [e] at h; cases h
        obtain ⟨c', hc1, hc2⟩ := g5 hv hne _ (List.getElem_mem hi')
        have hs := hl2 i hi'
        rw [List.getElem_map Cond.pat] at hs
        exact Cond.holds hI hf _ hs hc1 hc2
      · intro env v
        rw [← inst_vals hI hS r.left hl g2 (fun n h => h), Vals.single]
        constructor
        · intro hv; exact ⟨v, rfl, g3.val hv⟩
        · rintro ⟨u, hu, h⟩; cases hu; exact g3.symm.val h
      · intro env v
        rw [← inst_vals hI hS r.right hw g6 (by rw [names_mapVal, names_mapVal]; exact h7), Vals.single]
        constructor
        · intro h; exact ⟨v, rfl, h⟩
        · rintro ⟨u, hu, h⟩; cases hu; exact h
  · cases hr

end Verif.Rules
