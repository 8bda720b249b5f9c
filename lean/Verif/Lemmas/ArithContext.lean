import Verif.Model.ArithContext
import Verif.Lemmas.Context
import Verif.Lemmas.ParserCount
import Verif.Model.Tokenizer

/-!
# Contexts of the calculator: built-in operators plus user functions
-/

namespace Verif
open TrieProps

/-- Non-empty string of letters. -/
def isWord (s : Str) : Bool := !s.isEmpty && s.all isLetter

/-- The built-in operators as they are stored: addresses 0.., ids 0... -/
def builtin : List (Nat × Op) :=
  (arithOps.zipIdx).map fun x => (x.2, { x.1 with id := x.2 })

/-- A function the user may have added. -/
structure UserFn (o : Op) : Prop where
  placement : o.placement = .function
  prec : o.prec = 255
  name : isWord o.name = true

/-- What holds of the calculator's context at any time. -/
structure ArithLike (c : Ctx) : Prop where
  inv : Ctx.Inv c
  ops : ∃ us : List (Nat × Op), c.ops = builtin ++ us ∧ ∀ p ∈ us, UserFn p.2
  glue : c.glue = some 6
  next : 58 ≤ c.nextAddr
  kwSub : ∀ s, Trie.mem c.keywords.root s = true → isWord s = true ∨ s ∈ arithOps.map (·.name)
  kwSym : ∀ o ∈ arithOps, isWord o.name = false → Trie.mem c.keywords.root o.name = true

theorem addOps_spec {c : Ctx} (h : Ctx.Inv c) (l : List Op) (hl : ∀ o ∈ l, Storable o.name)
    {c' : Ctx} {b : Bool} (hr : c.addOps l = .ok (c', b)) : Ctx.Inv c' := by
  induction l generalizing c with
  | nil =>
    simp only [Ctx.addOps, Res.ok.injEq, Prod.mk.injEq] at hr
    obtain ⟨rfl, rfl⟩ := hr
    exact h
  | cons o l ih =>
    simp only [Ctx.addOps] at hr
    rcases h.addOp o (hl o List.mem_cons_self) with ⟨-, g⟩ | ⟨-, -, c1, g, hi, -⟩
    · simp only [g, Res.bind_ok, Res.pure_eq, Res.ok.injEq, Prod.mk.injEq] at hr
      obtain ⟨rfl, rfl⟩ := hr
      exact h
    · simp only [g, Res.bind_ok] at hr
      exact ih hi (fun o ho => hl o (List.mem_cons_of_mem _ ho)) hr

theorem addOps_kw {c : Ctx} (h : Ctx.Inv c) (l : List Op) (hl : ∀ o ∈ l, Storable o.name)
    {c' : Ctx} (hr : c.addOps l = .ok (c', true)) (s : Str) :
    Trie.mem c'.keywords.root s = (decide (s ∈ l.map (·.name)) || Trie.mem c.keywords.root s) := by
  induction l generalizing c with
  | nil =>
    simp only [Ctx.addOps, Res.ok.injEq, Prod.mk.injEq] at hr
    obtain ⟨rfl, -⟩ := hr
    simp
  | cons o l ih =>
    simp only [Ctx.addOps] at hr
    rcases h.addOp o (hl o List.mem_cons_self) with ⟨-, g⟩ | ⟨-, -, c1, g, hi, -, -, -, hk⟩
    · simp [g] at hr
    · simp only [g, Res.bind_ok] at hr
      rw [ih hi (fun o ho => hl o (List.mem_cons_of_mem _ ho)) hr, hk]
      by_cases h1 : s = o.name <;> by_cases h2 : s ∈ l.map (·.name) <;> simp [h1, h2]

theorem arith_storable : ∀ o ∈ arithOps, Storable o.name := by decide +kernel

/-- The initial context is built without a defect. -/
theorem arithCtx_ok : ∃ c, arithCtx = .ok c ∧ ArithLike c := by
  have key : (match Ctx.create.addOps arithOps with
    | .ok (c, b) => b && decide (c.ops = builtin ∧ c.nextAddr = 58)
    | _ => false) = true := by decide +kernel
  cases hr : Ctx.create.addOps arithOps with
  | defect => rw [hr] at key; cases key
  | ub => rw [hr] at key; cases key
  | ok p =>
    obtain ⟨c, b⟩ := p
    rw [hr] at key
    simp only [Bool.and_eq_true, decide_eq_true_eq] at key
    obtain ⟨rfl, hops, hnext⟩ := key
    have hinv := addOps_spec Ctx.inv_create arithOps arith_storable hr
    have hkw := addOps_kw Ctx.inv_create arithOps arith_storable hr
    have hfind : Ctx.findOp builtin "*".toList .infix
        = some (6, { Op.getInfix "*".toList 4 .left with id := 6 }) := by decide +kernel
    have hderef : c.deref 6 = .ok { Op.getInfix "*".toList 4 .left with id := 6 } := by
      unfold Ctx.deref
      rw [hops]
      have : builtin.find? (fun p => p.1 == 6) =
        some (6, { Op.getInfix "*".toList 4 .left with id := 6 }) := by decide +kernel
      rw [this]
    refine ⟨{ c with glue := some 6 }, ?_, ?_⟩
    · unfold arithCtx
      rw [hr]
      simp only [Res.bind_ok, Bool.not_true, Bool.false_eq_true, if_false, hinv.lookup, hops, hfind,
        Option.map_some, Ctx.setGlue, hderef]
      simp [Op.getInfix]
    · refine ⟨⟨hinv.rel, hinv.nodup, hinv.fresh, hinv.assoc, hinv.kw⟩, ⟨[], by simp [hops], by simp⟩,
        rfl, by simp [hnext], ?_, ?_⟩
      · intro s hs
        simp only [hkw s] at hs
        right
        simpa [Ctx.create, Trie.create] using hs
      · intro o ho _
        simp only [hkw]
        simp only [Bool.or_eq_true, decide_eq_true_eq]
        exact .inl (List.mem_map_of_mem ho)

theorem findOp_append (a b : List (Nat × Op)) (n : Str) (pl : Placement) :
    Ctx.findOp (a ++ b) n pl = (Ctx.findOp a n pl).or (Ctx.findOp b n pl) := by
  unfold Ctx.findOp
  rw [List.find?_append]

theorem isLetter_nat {c : Char} (h : isLetter c = true) :
    (65 ≤ c.toNat ∧ c.toNat ≤ 90) ∨ (97 ≤ c.toNat ∧ c.toNat ≤ 122) ∨ c.toNat = 95 ∨
      c.toNat = 91 ∨ c.toNat = 93 := by
  simp only [isLetter, Bool.or_eq_true, Bool.and_eq_true, decide_eq_true_eq, beq_iff_eq] at h
  rcases h with (((h | h) | rfl) | rfl) | rfl
  · exact .inl ⟨h.1, h.2⟩
  · exact .inr (.inl ⟨h.1, h.2⟩)
  all_goals decide

theorem word_storable {s : Str} (h : isWord s = true) : Storable s := by
  unfold isWord at h
  simp only [Bool.and_eq_true, Bool.not_eq_true', List.isEmpty_eq_false_iff, List.all_eq_true] at h
  intro c hc
  have := isLetter_nat (h.2 c hc)
  constructor
  · show 33 ≤ c.toNat
    omega
  · show c.toNat ≤ 124
    omega

/-- Adding a user function keeps the shape. -/
theorem ArithLike.addOp {c : Ctx} (h : ArithLike c) {o : Op} (ho : UserFn o) {c' : Ctx}
    {r : Option Nat} (hr : c.addOp o = .ok (c', r)) : ArithLike c' := by
  rcases h.inv.addOp o (word_storable ho.name) with ⟨-, g⟩ | ⟨-, -, c1, g, hi, g1, g2, g3, g4⟩
  · rw [g] at hr
    simp only [Res.ok.injEq, Prod.mk.injEq] at hr
    obtain ⟨rfl, -⟩ := hr
    exact h
  · rw [g] at hr
    simp only [Res.ok.injEq, Prod.mk.injEq] at hr
    obtain ⟨rfl, -⟩ := hr
    obtain ⟨us, h1, h2⟩ := h.ops
    refine ⟨hi, ⟨us ++ [(c.nextAddr, { o with id := c.ops.length })], by rw [g1, h1, List.append_assoc], ?_⟩,
      by rw [g2, h.glue], by have := h.next; omega, ?_, ?_⟩
    · intro p hp
      rcases List.mem_append.mp hp with hp | hp
      · exact h2 p hp
      · simp only [List.mem_singleton] at hp
        subst hp
        exact ⟨ho.placement, ho.prec, ho.name⟩
    · intro s hs
      rw [g4, Bool.or_eq_true, decide_eq_true_eq] at hs
      rcases hs with rfl | hs
      · exact .inl ho.name
      · exact h.kwSub s hs
    · intro o' ho' hw
      rw [g4, h.kwSym o' ho' hw, Bool.or_true]

/-- Deleting a function that is not built in keeps the shape. -/
theorem ArithLike.deleteOp {c : Ctx} (h : ArithLike c) {name : Str}
    (hb : Ctx.findOp builtin name .function = none) {c' : Ctx}
    {r : Bool} (hr : c.deleteOp name .function = .ok (c', r)) : ArithLike c' := by
  rcases h.inv.deleteOp name .function with ⟨-, g⟩ | ⟨p, hf, c1, g, hi, g1, g2, g3, g4⟩
  · rw [g] at hr
    simp only [Res.ok.injEq, Prod.mk.injEq] at hr
    obtain ⟨rfl, -⟩ := hr
    exact h
  · rw [g] at hr
    simp only [Res.ok.injEq, Prod.mk.injEq] at hr
    obtain ⟨rfl, -⟩ := hr
    obtain ⟨us, h1, h2⟩ := h.ops
    have hpu : p ∈ us := by
      rw [h1, findOp_append, hb, Option.none_or] at hf
      exact (Ctx.findOp_mem hf).1
    have hpn : p.2.name = name := (Ctx.findOp_mem hf).2.1
    refine ⟨hi, ⟨us.filter (fun q => q.1 != p.1), ?_, ?_⟩, by rw [g2, h.glue],
      by rw [g3]; exact h.next, ?_, ?_⟩
    · rw [g1, h1, List.filter_append]
      congr 1
      rw [List.filter_eq_self]
      intro q hq
      simp only [bne_iff_ne, ne_eq]
      intro hqp
      have hnd := h.inv.nodup
      rw [h1, List.map_append, List.nodup_append] at hnd
      exact hnd.2.2 q.1 (List.mem_map_of_mem hq) p.1 (List.mem_map_of_mem hpu) hqp
    · intro q hq
      exact h2 q (List.mem_filter.mp hq).1
    · intro s hs
      rw [g4, Bool.and_eq_true] at hs
      exact h.kwSub s hs.1
    · intro o ho hw
      rw [g4, h.kwSym o ho hw, Bool.true_and, decide_eq_true_eq]
      intro hn
      have := (h2 p hpu).name
      rw [hpn, ← hn, hw] at this
      cases this

theorem ArithLike.lookup_env {c : Ctx} (h : ArithLike c) (n : Str) (pl : Placement) :
    c.env.lookup n pl = (Ctx.findOp c.ops n pl).map (·.2) := by
  simp only [Ctx.env, h.inv.lookup]
  cases Ctx.findOp c.ops n pl <;> rfl

def mulOp : Op := { Op.getInfix "*".toList 4 .left with id := 6 }

theorem ArithLike.glue_env {c : Ctx} (h : ArithLike c) : c.env.glue = some mulOp := by
  have hm : (6, mulOp) ∈ c.ops := by
    obtain ⟨us, h1, -⟩ := h.ops
    rw [h1]
    exact List.mem_append_left _ (by decide +kernel)
  have : c.deref 6 = .ok mulOp := by
    unfold Ctx.deref
    have := Ctx.find_addr h.inv.nodup hm
    rw [this]
  simp [Ctx.env, h.glue, this]

instance (o : Op) : Decidable (WFOp o) :=
  decidable_of_iff ((o.placement = .prefix → o.arity = .fixed 1) ∧
    (o.placement = .infix → o.arity = .fixed 2 ∧ (o.prec < 255 ∨ (o.prec = 255 ∧ o.assoc = .left))) ∧
    (o.placement = .postfix → o.arity = .fixed 1 ∧ o.prec ≤ 255 ∧ o.assoc = .left) ∧
    (o.placement = .function → o.prec = 255))
    ⟨fun h => ⟨h.1, h.2.1, h.2.2.1, h.2.2.2⟩, fun h => ⟨h.1, h.2, h.3, h.4⟩⟩

theorem UserFn.wf {o : Op} (h : UserFn o) : WFOp o := by
  constructor <;> simp [h.placement, h.prec]

/-- The calculator's context is well-formed for the parser. -/
theorem ArithLike.wf {c : Ctx} (h : ArithLike c) : WFEnv c.env := by
  constructor
  · intro tok pl o ho
    rw [h.lookup_env] at ho
    cases hf : Ctx.findOp c.ops tok pl with
    | none => rw [hf] at ho; cases ho
    | some p =>
      rw [hf] at ho
      simp only [Option.map_some, Option.some.injEq] at ho
      subst ho
      obtain ⟨m1, m2, m3⟩ := Ctx.findOp_mem hf
      refine ⟨m3, ?_⟩
      obtain ⟨us, h1, h2⟩ := h.ops
      rw [h1] at m1
      rcases List.mem_append.mp m1 with m1 | m1
      · have : ∀ p ∈ builtin, WFOp p.2 := by decide +kernel
        exact this p m1
      · exact (h2 p m1).wf
  · intro o ho
    rw [h.glue_env] at ho
    simp only [Option.some.injEq] at ho
    subst ho
    exact ⟨rfl, by decide⟩

end Verif
