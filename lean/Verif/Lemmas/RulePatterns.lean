import Verif.Lemmas.RealValue
import Verif.Lemmas.ParserMap
import Verif.Lemmas.RuleParsing
import Verif.Props.Rewrite
import Mathlib.Analysis.Calculus.Deriv.Basic

/-!
# Patterns of rules as plain terms, and their values

A pattern tree is compared with a term (`Same`); the value of an instance of the
pattern is computed from the values of what the variables stand for (`vals_iff`).
-/

namespace Verif.Rules
open Verif Topology

/-- A term: numbers, variables, operators given by their ids; derivatives apart. -/
inductive Pat where
  | num (q : ℚ)
  | v (n : String)
  | app (id : Nat) (args : List Pat)
  | deriv (p : Pat) (z : String)

def Pat.isSingle : Pat → Bool
  | .v n => !isListName n.toList
  | _ => true

mutual
/-- A tree reads like a term; constants are compared by `R`. -/
def Same {V : Type} (R : V → ℚ → Prop) : Tree V → Pat → Prop
  | .const c _, .num q => R c q
  | .var n _ _, .v m => n = m.toList
  | .op o cs _, .app k ps => k ≠ 3 ∧ o.id = k ∧ propBuiltin[k]? = some o ∧ Sames R cs ps
  | .op o cs _, .deriv p z => o.id = 3 ∧ propBuiltin[3]? = some o ∧ p.isSingle = true ∧
      isListName z.toList = false ∧ ∃ c x i, cs = [c, .var z.toList x i] ∧ Same R c p
  | _, _ => False
termination_by _ p => sizeOf p
def Sames {V : Type} (R : V → ℚ → Prop) : List (Tree V) → List Pat → Prop
  | [], [] => True
  | c :: cs, p :: ps => Same R c p ∧ Sames R cs ps
  | _, _ => False
termination_by _ ps => sizeOf ps
end

mutual
/-- Decision of `Same`. -/
def same : Tree ℚ → Pat → Bool
  | .const c _, .num q => c == q
  | .var n _ _, .v m => n == m.toList
  | .op o cs _, .app k ps => k != 3 && o.id == k && propBuiltin[k]? == some o && sames cs ps
  | .op o [c, .var n _ _] _, .deriv p z => o.id == 3 && propBuiltin[3]? == some o && p.isSingle &&
      !isListName z.toList && n == z.toList && same c p
  | _, _ => false
def sames : List (Tree ℚ) → List Pat → Bool
  | [], [] => true
  | c :: cs, p :: ps => same c p && sames cs ps
  | _, _ => false
end

variable {I : Interp}

/-! ## Values as functions -/

/-- The expression has a value. -/
def D (I : Interp) (t : Tree ℝ) (env : Str → ℝ) : Prop := ∃ v, Val I t env v

open Classical in
/-- The value of an expression, 0 if it has none. -/
noncomputable def va (I : Interp) (t : Tree ℝ) (env : Str → ℝ) : ℝ := if h : ∃ v, Val I t env v then h.choose else 0

def fnD (I : Interp) (k : Nat) (args : List ℝ) : Prop := ∃ v, I.fn k args v

open Classical in
noncomputable def fnV (I : Interp) (k : Nat) (args : List ℝ) : ℝ := if h : ∃ v, I.fn k args v then h.choose else 0

theorem val_iff (hI : I.Right) {t : Tree ℝ} {env : Str → ℝ} {v : ℝ} :
    Val I t env v ↔ D I t env ∧ v = va I t env := by
  unfold va
  constructor
  · intro h
    have h' : ∃ v, Val I t env v := ⟨v, h⟩
    refine ⟨h', ?_⟩
    rw [dif_pos h']
    exact Val.unique hI.unique t h h'.choose_spec
  · rintro ⟨h, rfl⟩
    have h' : ∃ v, Val I t env v := h
    rw [dif_pos h']
    exact h'.choose_spec

theorem fn_iff (hI : I.Right) {k : Nat} {args : List ℝ} {v : ℝ} :
    I.fn k args v ↔ fnD I k args ∧ v = fnV I k args := by
  unfold fnV
  constructor
  · intro h
    have h' : ∃ v, I.fn k args v := ⟨v, h⟩
    refine ⟨h', ?_⟩
    rw [dif_pos h']
    exact hI.unique _ _ _ _ h h'.choose_spec
  · rintro ⟨h, rfl⟩
    have h' : ∃ v, I.fn k args v := h
    rw [dif_pos h']
    exact h'.choose_spec

theorem vals_iff' (hI : I.Right) {ts : List (Tree ℝ)} {env : Str → ℝ} {vs : List ℝ} :
    Vals I ts env vs ↔ (∀ t ∈ ts, D I t env) ∧ vs = ts.map (va I · env) := by
  induction ts generalizing vs with
  | nil => simp [Vals]
  | cons t ts ih =>
    simp only [Vals, ih, val_iff hI, List.mem_cons, forall_eq_or_imp, List.map_cons]
    constructor
    · rintro ⟨v, rest, rfl, ⟨h1, rfl⟩, h2, rfl⟩
      exact ⟨⟨h1, h2⟩, rfl⟩
    · rintro ⟨⟨h1, h2⟩, rfl⟩
      exact ⟨_, _, rfl, ⟨h1, rfl⟩, h2, rfl⟩

/-! ## Values of terms -/

open Classical in
mutual
/-- The term has a value (or values, if it is a list variable), if `σ` is put for the variables. -/
noncomputable def PD (I : Interp) (σ : String → List (Tree ℝ)) : Pat → (Str → ℝ) → Prop
  | .num _, _ => True
  | .v n, env => ∀ t ∈ σ n, D I t env
  | .app k ps, env => PDs I σ ps env ∧ fnD I k (PVs I σ ps env)
  | .deriv p z, env => ∃ x k i, σ z = [.var x k i] ∧
      (∀ᶠ y in 𝓝 (env x), PD I σ p (Function.update env x y)) ∧
      DifferentiableAt ℝ (fun y => (PV I σ p (Function.update env x y)).headD 0) (env x)
/-- The value. -/
noncomputable def PV (I : Interp) (σ : String → List (Tree ℝ)) : Pat → (Str → ℝ) → List ℝ
  | .num q, _ => [(q : ℝ)]
  | .v n, env => (σ n).map (va I · env)
  | .app k ps, env => [fnV I k (PVs I σ ps env)]
  | .deriv p z, env => [match σ z with
      | [.var x _ _] => _root_.deriv (fun y => (PV I σ p (Function.update env x y)).headD 0) (env x)
      | _ => 0]
noncomputable def PDs (I : Interp) (σ : String → List (Tree ℝ)) : List Pat → (Str → ℝ) → Prop
  | [], _ => True
  | p :: ps, env => PD I σ p env ∧ PDs I σ ps env
noncomputable def PVs (I : Interp) (σ : String → List (Tree ℝ)) : List Pat → (Str → ℝ) → List ℝ
  | [], _ => []
  | p :: ps, env => PV I σ p env ++ PVs I σ ps env
end

/-- Constants of the real tree are the rational ones. -/
def RatCast (c : ℝ) (q : ℚ) : Prop := c = q

/-! ## Instances -/

theorem Pat.induct {P : Pat → Prop} (h1 : ∀ q, P (.num q)) (h2 : ∀ n, P (.v n))
    (h3 : ∀ k ps, (∀ p ∈ ps, P p) → P (.app k ps)) (h4 : ∀ p z, P p → P (.deriv p z)) (p : Pat) : P p := by
  refine Pat.rec (motive_1 := P) (motive_2 := fun ps => ∀ p ∈ ps, P p) h1 h2 h3 h4 (by simp) ?_ p
  intro p ps h h'
  simp only [List.mem_cons, forall_eq_or_imp]
  exact ⟨h, h'⟩

/-- What the variables of a rule stand for. -/
def sub (σ : Str → Option (List (Tree ℝ))) (n : String) : List (Tree ℝ) := (σ n.toList).getD []

theorem inst_single {σ : Str → Option (List (Tree ℝ))} {g : Nat → Nat} {R : ℝ → ℚ → Prop} {S : List Str}
    (hS : ∀ n ∈ S, ¬ ListName n → ∃ x, σ n = some [x]) {t : Tree ℝ} {p : Pat} (h : Same R t p)
    (hp : p.isSingle = true) {ts : List (Tree ℝ)} (hi : Inst σ g t ts) (hn : ∀ n ∈ t.names, n ∈ S) :
    ∃ u, ts = [u] := by
  cases hi with
  | const => exact ⟨_, rfl⟩
  | op => exact ⟨_, rfl⟩
  | @var n x i l h' =>
    cases p with
    | v m =>
      simp only [Same] at h
      subst h
      simp only [Pat.isSingle, Bool.not_eq_true'] at hp
      obtain ⟨u, hu⟩ := hS m.toList (hn _ (by simp [Tree.names]))
        (by rw [← isListName_iff, hp]; simp)
      rw [hu] at h'
      cases h'
      exact ⟨u, rfl⟩
    | num q => simp [Same] at h
    | app k ps => simp [Same] at h
    | deriv p z => simp [Same] at h

theorem inst_vals (hI : I.Right) {σ : Str → Option (List (Tree ℝ))} {g : Nat → Nat} {S : List Str}
    (hS : ∀ n ∈ S, ¬ ListName n → ∃ x, σ n = some [x]) (p : Pat) :
    ∀ {t : Tree ℝ} {ts : List (Tree ℝ)}, Same RatCast t p → Inst σ g t ts → (∀ n ∈ t.names, n ∈ S) →
    ∀ {env : Str → ℝ} {vs : List ℝ},
    Vals I ts env vs ↔ PD I (sub σ) p env ∧ vs = PV I (sub σ) p env := by
  induction p using Pat.induct with
  | h1 q =>
    intro t ts h hi _ env vs
    cases hi with
    | const =>
      simp only [Same, RatCast] at h
      subst h
      rw [Vals.single]
      simp only [PD, PV, Val, true_and]
      constructor
      · rintro ⟨v, rfl, rfl⟩; rfl
      · rintro rfl; exact ⟨_, rfl, rfl⟩
    | var => simp [Same] at h
    | op => simp [Same] at h
  | h2 m =>
    intro t ts h hi _ env vs
    cases hi with
    | const => simp [Same] at h
    | op => simp [Same] at h
    | var h' =>
      simp only [Same] at h
      subst h
      have : sub σ m = ts := by simp [sub, h']
      simp only [PD, PV, this]
      exact vals_iff' hI
  | h3 k ps ih =>
    intro t ts h hi hn env vs
    cases hi with
    | const => simp [Same] at h
    | var => simp [Same] at h
    | @op o cs i parts hl hc =>
      simp only [Same] at h
      obtain ⟨hk, ho, -, hs⟩ := h
      have hd : k ≠ I.deriv := by rw [hI.deriv_eq]; exact hk
      have key : ∀ ws, Vals I parts.flatten env ws ↔ PDs I (sub σ) ps env ∧ ws = PVs I (sub σ) ps env := by
        simp only [Tree.names] at hn
        clear hd hk vs
        induction ps generalizing cs parts with
        | nil =>
          cases cs with
          | nil =>
            obtain rfl : parts = [] := List.length_eq_zero_iff.1 (by simpa using hl.symm)
            simp [Vals, PDs, PVs]
          | cons c cs => simp [Sames] at hs
        | cons p ps ihl =>
          cases cs with
          | nil => simp [Sames] at hs
          | cons c cs =>
            cases parts with
            | nil => simp at hl
            | cons a parts =>
              simp only [Sames] at hs
              simp only [Tree.namesList, List.mem_append] at hn
              intro ws
              have h1 := fun env vs => @ih p (by simp) c a hs.1 (hc 0 (by simp)) (fun n h => hn n (.inl h)) env vs
              have h2 := ihl (fun p hp => ih p (by simp [hp])) (by simpa using hl)
                (fun k hk => hc (k + 1) (by simpa using hk)) (fun n h => hn n (.inr h)) hs.2
              simp only [List.flatten_cons, Vals.append, h1, h2, PDs, PVs]
              constructor
              · rintro ⟨u, w, rfl, ⟨h3, rfl⟩, h4, rfl⟩
                exact ⟨⟨h3, h4⟩, rfl⟩
              · rintro ⟨⟨h3, h4⟩, rfl⟩
                exact ⟨_, _, rfl, ⟨h3, rfl⟩, h4, rfl⟩
      rw [Vals.single]
      simp only [Val, ho, hd, false_and, false_or, ne_eq, not_false_iff, true_and, key, PD, PV, fn_iff hI]
      constructor
      · rintro ⟨v, rfl, ws, ⟨h1, rfl⟩, h2, rfl⟩
        exact ⟨⟨h1, h2⟩, rfl⟩
      · rintro ⟨⟨h1, h2⟩, rfl⟩
        exact ⟨_, rfl, _, ⟨h1, rfl⟩, h2, rfl⟩
  | h4 p z ih =>
    intro t ts h hi hn env vs
    cases hi with
    | const => simp [Same] at h
    | var => simp [Same] at h
    | @op o cs i parts hl hc =>
      simp only [Same] at h
      obtain ⟨ho, -, hp, hz, c, x, j, rfl, hs⟩ := h
      have hd : o.id = I.deriv := by rw [hI.deriv_eq, ho]
      match parts, hl, hc with
      | [a, b], hl, hc =>
        have h0 := hc 0 (by simp)
        have h1 := hc 1 (by simp)
        simp only [List.getElem_cons_zero, List.getElem_cons_succ] at h0 h1
        simp only [Tree.names, Tree.namesList, List.append_nil, List.mem_append] at hn
        obtain ⟨f, rfl⟩ := inst_single hS hs hp h0 (fun n h => hn n (.inl h))
        obtain ⟨w, hw⟩ := hS z.toList (hn _ (by simp)) (by rw [← isListName_iff, hz]; simp)
        cases h1 with
        | var h1 =>
          rw [hw] at h1
          cases h1
          have hsub : sub σ z = [w] := by simp [sub, hw]
          have ih := fun env v => @ih c [f] hs h0 (fun n h => hn n (.inl h)) env v
          simp only [List.flatten_cons, List.flatten_nil, List.append_nil, List.singleton_append]
          rw [Vals.single]
          simp only [Val, hd, ne_eq, not_true_eq_false, false_and, or_false, true_and, PD, PV, hsub]
          have hval : ∀ env v, Val I f env v ↔ PD I (sub σ) p env ∧ v = (PV I (sub σ) p env).headD 0 := by
            intro env v
            constructor
            · intro h
              have := (ih env [v]).1 (Vals.single.2 ⟨v, rfl, h⟩)
              refine ⟨this.1, ?_⟩
              rw [← this.2]; rfl
            · rintro ⟨h, rfl⟩
              obtain ⟨v, hv, h⟩ := Vals.single.1 ((ih env _).2 ⟨h, rfl⟩)
              rw [hv]
              exact h
          constructor
          · rintro ⟨v, rfl, hv⟩
            obtain ⟨f', y, k, m, he, gg, g1, g2⟩ := slope_iff.1 hv
            cases he
            simp only [hval] at g1
            have e : gg =ᶠ[𝓝 (env y)] fun t => (PV I (sub σ) p (Function.update env y t)).headD 0 := by
              filter_upwards [g1] with t ht
              exact ht.2
            have hder := g2.congr_of_eventuallyEq e.symm
            refine ⟨⟨y, k, m, rfl, ?_, hder.differentiableAt⟩, ?_⟩
            · filter_upwards [g1] with t ht using ht.1
            · simp only
              rw [hder.deriv]
          · rintro ⟨⟨y, k, m, hy, h1, h2⟩, rfl⟩
            cases hy
            refine ⟨_, rfl, slope_iff.2 ⟨f, y, k, m, rfl, _, ?_, h2.hasDerivAt⟩⟩
            filter_upwards [h1] with t ht
            exact (hval _ _).2 ⟨ht, rfl⟩

end Verif.Rules
