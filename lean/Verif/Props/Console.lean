import Verif.Model.Console
import Verif.Model.Table
import Verif.Props.Parser
import Verif.Lemmas.StringUtil

/-!
# C82: errors are marked under the text they belong to

The report of an error is one line that is shown under the line the user typed.  Specification: a column of
the report is marked if it holds a caret or a tilde; the marked columns are to be those of the offending text.
-/

namespace Verif.ConsoleProps
open Verif.ParserProps
variable {V : Type}

/-- A caret or a tilde in column `i`. -/
def Marked (line : Str) (i : Nat) : Prop := line[i]? = some '^' ∨ line[i]? = some '~'

/-- `out` is one line, it marks exactly `len` columns from column `start` on, with one caret, and shows the
message; besides there are only spaces. -/
structure Underlines (out : Str) (start len : Nat) (msg : Str) : Prop where
  shown : ∃ line a b, out = line ++ ['\n'] ∧ '\n' ∉ line ∧ (∀ i, Marked line i ↔ start ≤ i ∧ i < start + len) ∧
    line.count '^' = 1 ∧ line = a ++ msg ++ b ∧ ∀ c ∈ a ++ b, c = ' ' ∨ c = '^' ∨ c = '~'

/-- The characters a message must not contain. -/
def PlainMsg (msg : Str) : Prop := '\n' ∉ msg ∧ '^' ∉ msg ∧ '~' ∉ msg

instance (msg : Str) : Decidable (PlainMsg msg) := by unfold PlainMsg; infer_instance

theorem marked_iff {a m b : Str} (ha : '^' ∉ a ∧ '~' ∉ a) (hm : ∀ c ∈ m, c = '^' ∨ c = '~') (hb : '^' ∉ b ∧ '~' ∉ b)
    (i : Nat) : Marked (a ++ m ++ b) i ↔ a.length ≤ i ∧ i < a.length + m.length := by
  unfold Marked
  by_cases h1 : i < a.length
  · rw [List.append_assoc, List.getElem?_append_left h1]
    refine ⟨fun h => ?_, fun h => absurd h.1 (by omega)⟩
    exfalso
    rcases h with h | h
    · exact ha.1 (List.mem_of_getElem? h)
    · exact ha.2 (List.mem_of_getElem? h)
  · by_cases h2 : i < a.length + m.length
    · refine ⟨fun _ => ⟨by omega, h2⟩, fun _ => ?_⟩
      rw [List.append_assoc, List.getElem?_append_right (by omega), List.getElem?_append_left (by omega),
        List.getElem?_eq_getElem (by omega)]
      rcases hm _ (List.getElem_mem (show i - a.length < m.length by omega)) with h | h
      · left; rw [h]
      · right; rw [h]
    · rw [List.getElem?_append_right (by simp; omega)]
      refine ⟨fun h => ?_, fun h => absurd h.2 h2⟩
      exfalso
      rcases h with h | h
      · exact hb.1 (List.mem_of_getElem? h)
      · exact hb.2 (List.mem_of_getElem? h)

/-- **C82**, the layout: in interactive mode, the report marks exactly the columns it was asked to mark (one
column if there is no text to mark), left or right of the message.  The condition on the message is needed, see
`C82_newline`. -/
theorem C82_layout_partial (pos length : Nat) (msg : Str) (hmsg : PlainMsg msg) :
    Underlines (reportErrorAt true pos length msg) pos (max length 1) msg := by
  obtain ⟨hn, hc, ht⟩ := hmsg
  have hsp : ∀ k c, c ∈ List.replicate k ' ' → c = ' ' := fun k c h => (List.mem_replicate.mp h).2
  have hti : ∀ k c, c ∈ List.replicate k '~' → c = '~' := fun k c h => (List.mem_replicate.mp h).2
  have e1 : ∀ k, '^' ∉ List.replicate k ' ' := fun k h => absurd (hsp k _ h) (by decide)
  have e2 : ∀ k, '~' ∉ List.replicate k ' ' := fun k h => absurd (hsp k _ h) (by decide)
  have e3 : ∀ k, '\n' ∉ List.replicate k ' ' := fun k h => absurd (hsp k _ h) (by decide)
  have e4 : ∀ k, '^' ∉ List.replicate k '~' := fun k h => absurd (hti k _ h) (by decide)
  have e5 : ∀ k, '\n' ∉ List.replicate k '~' := fun k h => absurd (hti k _ h) (by decide)
  unfold reportErrorAt
  rw [if_pos rfl]
  split
  · rename_i hleft
    have hlt : msg.length < pos := by omega
    refine ⟨_, List.replicate (pos - msg.length - 1) ' ', [' '] ++ List.replicate (length - 1) '~' ++ ['^'], rfl, ?_, ?_, ?_,
      by simp, ?_⟩
    · simp [hn, e3, e5]
    · intro i
      have := marked_iff (a := List.replicate (pos - msg.length - 1) ' ' ++ msg ++ [' '])
        (m := List.replicate (length - 1) '~' ++ ['^']) (b := []) (by simp [e1, e2, hc, ht])
        (by
          intro c h
          rcases List.mem_append.mp h with h | h
          · exact .inr (hti _ _ h)
          · exact .inl (List.mem_singleton.mp h)) (by simp) i
      simp only [List.append_nil, List.append_assoc, List.length_append, List.length_replicate, List.length_cons,
        List.length_nil] at this ⊢
      rw [this]
      omega
    · rw [List.count_append, List.count_append, List.count_append, List.count_append, List.count_eq_zero_of_not_mem (e1 _),
        List.count_eq_zero_of_not_mem hc, List.count_eq_zero_of_not_mem (e4 _)]
      rfl
    · intro c h
      simp only [List.mem_append, List.mem_singleton] at h
      rcases h with h | (h | h) | h
      · exact .inl (hsp _ _ h)
      · exact .inl h
      · exact .inr (.inr (hti _ _ h))
      · exact .inr (.inl h)
  · refine ⟨_, List.replicate pos ' ' ++ ['^'] ++ List.replicate (length - 1) '~' ++ [' '], [], rfl, ?_, ?_, ?_, by simp, ?_⟩
    · simp [hn, e3, e5]
    · intro i
      have := marked_iff (a := List.replicate pos ' ')
        (m := ['^'] ++ List.replicate (length - 1) '~') (b := [' '] ++ msg) (by simp [e1, e2])
        (by
          intro c h
          rcases List.mem_append.mp h with h | h
          · exact .inl (List.mem_singleton.mp h)
          · exact .inr (hti _ _ h)) (by simp [hc, ht]) i
      simp only [List.append_assoc, List.length_append, List.length_replicate, List.length_cons,
        List.length_nil] at this ⊢
      rw [this]
      omega
    · rw [List.count_append, List.count_append, List.count_append, List.count_append, List.count_eq_zero_of_not_mem (e1 _),
        List.count_eq_zero_of_not_mem hc, List.count_eq_zero_of_not_mem (e4 _)]
      rfl
    · intro c h
      simp only [List.append_nil, List.mem_append, List.mem_singleton] at h
      rcases h with ((h | h) | h) | h
      · exact .inl (hsp _ _ h)
      · exact .inr (.inl h)
      · exact .inr (.inr (hti _ _ h))
      · exact .inl h

/-- Without a terminal, just the message is written. -/
theorem C82_plain (pos length : Nat) (msg : Str) : reportErrorAt false pos length msg = msg ++ ['\n'] := rfl

/-- **C82.** Every kind of error has its own message. -/
theorem C82_messages {e e' : PErr} (h : perrToString e = perrToString e') : e = e' := by
  revert e e'
  have : ∀ a b : PErr, perrToString a = perrToString b → a = b := by
    intro a b
    cases a <;> cases b <;> decide +kernel
  exact fun {e e'} => this e e'

theorem message_plain (e : PErr) : PlainMsg ("Error: ".toList ++ perrToString e) := by
  cases e <;> decide +kernel

/-- **C82**, parser errors: whatever the user typed, `A ++ inp ++ B`, when parsing the part `inp` of it fails, the
report marks exactly the columns of the offending token in what was typed, or the first column behind the part if
the error is at its end. -/
theorem C82_parser_error (c : Ctx) (hc : ArithLike c) (strtod : Str → Option V) (A inp B : Str) (e : PErr) (k : Nat)
    (h : (parseInput c strtod inp).2 = .err e k) :
    ∃ before tok after out, A ++ inp ++ B = (A ++ before) ++ tok ++ after ∧
      parseReport true c strtod inp A.length = .ok out ∧
      Underlines out (A ++ before).length (max tok.length 1) ("Error: ".toList ++ perrToString e) ∧
      inp.take before.length = before ∧ before.length + tok.length ≤ inp.length ∧
      (match (tokenize c.keywords inp)[k]? with
        | some t => tok = t ∧ tok ≠ [] ∧ before = ((tokenize c.keywords inp).take k).flatten
        | none => tok = [] ∧ before = inp) := by
  obtain ⟨before, rest, h1, h2, h3⟩ := C09_caret_column c hc strtod inp A.length e k h
  have hfst : (parseInput c strtod inp).1 = tokenize c.keywords inp := rfl
  have hrep : ∀ len, errorLength (parseInput c strtod inp).1 k = len →
      parseReport true c strtod inp A.length =
        .ok (reportErrorAt true (A.length + before.length) len ("Error: ".toList ++ perrToString e)) := by
    intro len hlen
    unfold parseReport
    rcases hp : parseInput c strtod inp with ⟨ts, r⟩
    rw [hp] at h h2 hlen
    simp only at h
    subst h
    simp only [showErrorAtToken]
    rw [h2]
    simp only [Res.bind_ok, Res.pure_eq]
    rw [hlen]
  rw [hfst] at h3
  have hloss := C07_calculator c hc inp
  -- the text before the token is what the tokens before it make
  have hbefore : before.length = ((tokenize c.keywords inp).take k).flatten.length := by
    have hk : k ≤ (tokenize c.keywords inp).length := by
      have := (C09_error_token c.env strtod (tokenize c.keywords inp) e k h).1
      omega
    have := errorPos_eq (tokenize c.keywords inp) A.length k hk
    rw [hfst, this] at h2
    have := Res.ok.inj h2
    omega
  have htake : before = ((tokenize c.keywords inp).take k).flatten := by
    have e1 : inp = ((tokenize c.keywords inp).take k).flatten ++ ((tokenize c.keywords inp).drop k).flatten := by
      rw [← List.flatten_append, List.take_append_drop]; exact hloss.1.symm
    rw [h1] at e1
    rw [← h1] at e1
    exact (List.append_inj (h1.symm.trans e1) hbefore).1
  cases hg : (tokenize c.keywords inp)[k]? with
  | none =>
    rw [hg] at h3
    obtain ⟨hrest, hk⟩ := h3
    refine ⟨before, [], B, _, by rw [h1, hrest]; simp, hrep 1 (by simp [errorLength, hfst, hg]), ?_, ?_, ?_, rfl, ?_⟩
    · have := C82_layout_partial (A.length + before.length) 1 _ (message_plain e)
      simpa using this
    · rw [h1]; simp
    · rw [h1]; simp
    · rw [h1, hrest]; simp
  | some tok =>
    rw [hg] at h3
    obtain ⟨⟨after, hafter⟩, hlen⟩ := h3
    refine ⟨before, tok, after ++ B, _, by rw [h1, ← hafter]; simp, hrep tok.length hlen, ?_, ?_, ?_, rfl, ?_, htake⟩
    · have := C82_layout_partial (A.length + before.length) tok.length _ (message_plain e)
      simpa using this
    · rw [h1]; simp
    · rw [h1, ← hafter]; simp
    · exact hloss.2 tok (List.mem_of_getElem? hg)

/-! ## Which part of the line is parsed -/

/-- A block of memory from which characters were only erased. -/
def Erased (mem mem' : Str) : Prop := mem'.length = mem.length ∧ ∀ i : Nat, mem'[i]? = mem[i]? ∨ mem'[i]? = some nul

theorem Erased.refl (m : Str) : Erased m m := ⟨rfl, fun _ => .inl rfl⟩

theorem Erased.trans {a b c : Str} (h1 : Erased a b) (h2 : Erased b c) : Erased a c := by
  refine ⟨h2.1.trans h1.1, fun i => ?_⟩
  rcases h2.2 i with h | h
  · rw [h]; exact h1.2 i
  · exact .inr h

theorem Erased.set (m : Str) (k : Nat) : Erased m (m.set k nul) := by
  refine ⟨by simp, fun i => ?_⟩
  by_cases h : k = i
  · subst h
    by_cases hk : k < m.length
    · right; simp [hk]
    · left; simp [hk]
  · left; simp [h]

theorem strSplit_erased (ds : List Str) (mem : Str) (off : Nat) : Erased mem (strSplit mem off ds).1 := by
  induction ds generalizing mem off with
  | nil => exact .refl _
  | cons d ds ih =>
    unfold strSplit
    split
    · exact (Erased.set mem _).trans (ih _ _)
    · exact .refl _

theorem stripEnd_erased {k : Nat} {mem m : Str} (h : stripEnd mem k = .ok m) : Erased mem m := by
  induction k generalizing mem with
  | zero => simp [stripEnd] at h
  | succ k ih =>
    unfold stripEnd at h
    split at h
    · exact (Erased.set mem k).trans (ih h)
    · cases h; exact .refl _

theorem strip_erased {mem m : Str} {off o : Nat} (h : strip mem off = .ok (m, o)) : Erased mem m := by
  unfold strip at h
  dsimp only at h
  split at h
  · cases h; exact .refl _
  · cases hs : stripEnd mem (off + (cstrAt mem off).length) with
    | ok m' =>
      rw [hs] at h
      simp only [Res.bind_ok, Res.pure_eq, Res.ok.injEq, Prod.mk.injEq] at h
      rw [← h.1]
      exact stripEnd_erased hs
    | defect => rw [hs] at h; cases h
    | ub => rw [hs] at h; cases h

theorem stripAll_erased {os os' : List Nat} {mem m : Str} (h : stripAll mem os = .ok (m, os')) : Erased mem m := by
  induction os generalizing mem m os' with
  | nil => cases h; exact .refl _
  | cons o os ih =>
    unfold stripAll at h
    cases h1 : strip mem o with
    | ok r =>
      obtain ⟨m1, o1⟩ := r
      rw [h1] at h
      simp only [Res.bind_ok] at h
      cases h2 : stripAll m1 os with
      | ok r =>
        obtain ⟨m2, os2⟩ := r
        rw [h2] at h
        simp only [Res.bind_ok, Res.pure_eq, Res.ok.injEq, Prod.mk.injEq] at h
        rw [← h.1]
        exact (strip_erased h1).trans (ih h2)
      | defect => rw [h2] at h; cases h
      | ub => rw [h2] at h; cases h
    | defect => rw [h1] at h; cases h
    | ub => rw [h1] at h; cases h

theorem erased_prefix {a b : Str} (h : Erased a b) : b.takeWhile (· != nul) <+: a := by
  induction b generalizing a with
  | nil => exact List.nil_prefix
  | cons c b ih =>
    by_cases hc : c = nul
    · subst hc
      simp
    · cases a with
      | nil => exact absurd h.1 (by simp)
      | cons d a =>
        have h0 := h.2 0
        simp only [List.getElem?_cons_zero, Option.some.injEq] at h0
        have hcd : c = d := by
          rcases h0 with h0 | h0
          · exact h0
          · exact absurd h0 hc
        subst hcd
        have : Erased a b := ⟨by simpa using h.1, fun i => by simpa using h.2 (i + 1)⟩
        rw [List.takeWhile_cons, if_pos (by simpa using hc)]
        exact (List.prefix_cons_inj c).mpr (ih this)

theorem Erased.drop {a b : Str} (h : Erased a b) (o : Nat) : Erased (a.drop o) (b.drop o) := by
  refine ⟨by simp [h.1], fun i => ?_⟩
  simpa using h.2 (o + i)

/-- Behind the offset of an argument the typed line goes on with the argument. -/
theorem arg_typed {input m : Str} (hreal : nul ∉ input) {o : Nat} (h : Erased (input ++ [nul]) m) (ho : o ≤ input.length) :
    ∃ A B, input = A ++ cstrAt m o ++ B ∧ A.length = o := by
  have hp := erased_prefix (h.drop o)
  rw [List.drop_append_of_le_length ho] at hp
  obtain ⟨rest, hr⟩ := hp
  have hn : nul ∉ cstrAt m o := by
    intro hc
    have := List.all_takeWhile (p := (· != nul)) (l := m.drop o)
    rw [List.all_eq_true] at this
    simpa using this nul hc
  have hle : (cstrAt m o).length ≤ (input.drop o).length := by
    by_contra hlt
    have hl := congrArg List.length hr
    simp only [List.length_append, List.length_cons, List.length_nil] at hl
    change (cstrAt m o).length + rest.length = (input.drop o).length + (0 + 1) at hl
    have hrest : rest = [] := List.eq_nil_of_length_eq_zero (by omega)
    rw [hrest, List.append_nil] at hr
    apply hn
    change nul ∈ List.takeWhile (· != nul) (m.drop o)
    rw [hr]
    simp
  have hpre : cstrAt m o <+: input.drop o :=
    List.prefix_of_prefix_length_le ⟨rest, hr⟩ (List.prefix_append _ _) hle
  obtain ⟨B, hB⟩ := hpre
  exact ⟨input.take o, B, by rw [List.append_assoc, hB, List.take_append_drop], by simp [ho]⟩

theorem strSplit_offsets {input : Str} (hreal : nul ∉ input) (ds : List Str) (mem : Str) (off : Nat)
    (h : Erased (input ++ [nul]) mem) (ho : off ≤ input.length) : ∀ o ∈ (strSplit mem off ds).2, o ≤ input.length := by
  induction ds generalizing mem off with
  | nil => intro o hoo; rw [List.mem_singleton.mp hoo]; exact ho
  | cons d ds ih =>
    unfold strSplit
    cases hs : strstr (cstrAt mem off) d with
    | none => intro o hoo; rw [List.mem_singleton.mp hoo]; exact ho
    | some k =>
      obtain ⟨i, h1, _, h3, _⟩ := strstrFrom_some _ 0 k hs
      obtain ⟨A, B, hAB, hA⟩ := arg_typed hreal h ho
      have hl := congrArg List.length hAB
      simp only [List.length_append] at hl
      intro o hoo
      rcases List.mem_cons.mp hoo with rfl | hoo
      · exact ho
      · exact ih _ _ (h.trans (Erased.set mem _)) (by omega) o hoo

theorem stripAll_offsets {input : Str} (hreal : nul ∉ input) {os os' : List Nat} {mem m : Str}
    (he : Erased (input ++ [nul]) mem) (ho : ∀ o ∈ os, o ≤ input.length) (h : stripAll mem os = .ok (m, os')) :
    ∀ o ∈ os', o ≤ input.length := by
  induction os generalizing mem m os' with
  | nil => cases h; exact ho
  | cons o os ih =>
    unfold stripAll at h
    cases h1 : strip mem o with
    | ok r =>
      obtain ⟨m1, o1⟩ := r
      rw [h1] at h
      simp only [Res.bind_ok] at h
      cases h2 : stripAll m1 os with
      | ok r =>
        obtain ⟨m2, os2⟩ := r
        rw [h2] at h
        simp only [Res.bind_ok, Res.pure_eq, Res.ok.injEq, Prod.mk.injEq] at h
        obtain ⟨_, rfl⟩ := h
        intro x hx
        rcases List.mem_cons.mp hx with rfl | hx
        · obtain ⟨A, B, hAB, hA⟩ := arg_typed hreal he (ho o List.mem_cons_self)
          have hl := congrArg List.length hAB
          simp only [List.length_append] at hl
          have hoo := ho o List.mem_cons_self
          unfold strip at h1
          dsimp only at h1
          split at h1
          · cases h1; exact hoo
          · cases hs : stripEnd mem (o + (cstrAt mem o).length) with
            | ok m' =>
              rw [hs] at h1
              simp only [Res.bind_ok, Res.pure_eq, Res.ok.injEq, Prod.mk.injEq] at h1
              have := (List.takeWhile_sublist (p := (· == ' ')) (l := cstrAt mem o)).length_le
              omega
            | defect => rw [hs] at h1; cases h1
            | ub => rw [hs] at h1; cases h1
        · exact ih (he.trans (strip_erased h1)) (fun y hy => ho y (List.mem_cons_of_mem _ hy)) h2 x hx
      | defect => rw [h2] at h; cases h
      | ub => rw [h2] at h; cases h
    | defect => rw [h1] at h; cases h
    | ub => rw [h1] at h; cases h

/-- **C82**, the table command: the numbers it adds to the columns are the places where its arguments were typed. -/
theorem C82_table_args (input : Str) (hreal : nul ∉ input) (hcmd : tableCommand <+: input) (m : Str) (os : List Nat)
    (h : stripAll (strSplit (input ++ [nul]) tableCommand.length tableDelims).1
      (strSplit (input ++ [nul]) tableCommand.length tableDelims).2 = .ok (m, os)) :
    ∀ o ∈ os, ∃ A B, input = A ++ cstrAt m o ++ B ∧ A.length = o := by
  intro o ho
  have hl : tableCommand.length ≤ input.length := hcmd.length_le
  have h1 := strSplit_erased tableDelims (input ++ [nul]) tableCommand.length
  have h2 := stripAll_erased h
  have h3 := strSplit_offsets hreal tableDelims (input ++ [nul]) tableCommand.length (.refl _) hl
  exact arg_typed hreal (h1.trans h2) (stripAll_offsets hreal h1 h3 h o ho)

/-- **C82**, the table command: errors in its arguments are marked where they were typed. -/
theorem C82_table (c : Ctx) (hc : ArithLike c) (strtod : Str → Option V) (input : Str) (hreal : nul ∉ input)
    (hcmd : tableCommand <+: input) (m : Str) (os : List Nat)
    (h : stripAll (strSplit (input ++ [nul]) tableCommand.length tableDelims).1
      (strSplit (input ++ [nul]) tableCommand.length tableDelims).2 = .ok (m, os)) (o : Nat) (ho : o ∈ os)
    (e : PErr) (k : Nat) (herr : (parseInput c strtod (cstrAt m o)).2 = .err e k) :
    ∃ before tok after out, input = before ++ tok ++ after ∧ parseReport true c strtod (cstrAt m o) o = .ok out ∧
      Underlines out before.length (max tok.length 1) ("Error: ".toList ++ perrToString e) ∧
      tok = ((tokenize c.keywords (cstrAt m o))[k]?).getD [] := by
  obtain ⟨A, B, hAB, hA⟩ := C82_table_args input hreal hcmd m os h o ho
  obtain ⟨before, tok, after, out, h1, h2, h3, _, _, h6⟩ := C82_parser_error c hc strtod A _ B e k herr
  refine ⟨A ++ before, tok, after, out, hAB.trans h1, by rw [hA] at h2; exact h2, h3, ?_⟩
  cases hg : (tokenize c.keywords (cstrAt m o))[k]? with
  | none => rw [hg] at h6; rw [h6.1]; rfl
  | some t => rw [hg] at h6; rw [h6.1]; rfl

/-- **C82**, a definition: errors on its right side are marked where they were typed, with the number the command
adds (`right - left`, cmd_definition.c:133). -/
theorem C82_definition (c : Ctx) (hc : ArithLike c) (strtod : Str → Option V) (left right : Str) (e : PErr) (k : Nat)
    (herr : (parseInput c strtod right).2 = .err e k) :
    ∃ before tok after out, left ++ '=' :: right = before ++ tok ++ after ∧ left.length + 1 ≤ before.length ∧
      parseReport true c strtod right (left.length + 1) = .ok out ∧
      Underlines out before.length (max tok.length 1) ("Error: ".toList ++ perrToString e) ∧
      tok = ((tokenize c.keywords right)[k]?).getD [] := by
  obtain ⟨before, tok, after, out, h1, h2, h3, _, _, h6⟩ := C82_parser_error c hc strtod (left ++ ['=']) right [] e k herr
  refine ⟨left ++ ['='] ++ before, tok, after, out, by rw [← h1]; simp, by simp, by simpa using h2, h3, ?_⟩
  cases hg : (tokenize c.keywords right)[k]? with
  | none => rw [hg] at h6; rw [h6.1]; rfl
  | some t => rw [hg] at h6; rw [h6.1]; rfl

/-! ## A case -/

/-- A table command with an error in its third argument, and spaces around the arguments. -/
def badTable : Str := "table x ;  1;  2 + * ; 1".toList

/-- The error is in the argument that was typed from column 15 on, at its fifth token; the report has its marks
under the asterisk, in column 19. -/
theorem badTable_report : ∃ c, arithCtx = .ok c ∧ ArithLike c ∧
    (match stripAll (strSplit (badTable ++ [nul]) tableCommand.length tableDelims).1
      (strSplit (badTable ++ [nul]) tableCommand.length tableDelims).2 with
    | .ok (m, os) => (match os[2]? with
      | some o => decide (o = 15) && (match (parseInput c (fun s => if s.all isDigit then some (0 : Nat) else none) (cstrAt m o)).2 with
          | .err .unexpectedInfix 4 => true
          | _ => false) &&
        (match parseReport true c (fun s => if s.all isDigit then some (0 : Nat) else none) (cstrAt m o) o with
          | .ok out => decide (out = "                   ^ Error: Unexpected infix or postfix operator\n".toList)
          | _ => false)
      | none => false)
    | _ => false) = true := by
  obtain ⟨c, hc, hl⟩ := arithCtx_ok
  refine ⟨c, hc, hl, ?_⟩
  have key : (match arithCtx with
    | .ok c => (match stripAll (strSplit (badTable ++ [nul]) tableCommand.length tableDelims).1
      (strSplit (badTable ++ [nul]) tableCommand.length tableDelims).2 with
    | .ok (m, os) => (match os[2]? with
      | some o => decide (o = 15) && (match (parseInput c (fun s => if s.all isDigit then some (0 : Nat) else none) (cstrAt m o)).2 with
          | .err .unexpectedInfix 4 => true
          | _ => false) &&
        (match parseReport true c (fun s => if s.all isDigit then some (0 : Nat) else none) (cstrAt m o) o with
          | .ok out => decide (out = "                   ^ Error: Unexpected infix or postfix operator\n".toList)
          | _ => false)
      | none => false)
    | _ => false)
    | _ => false) = true := by decide +kernel
  rw [hc] at key
  exact key

/-! ## Messages that end their line -/

/-- cmd_table.c:111 -/
def stepMessage : Str := "Error: 'step' must not be zero\n".toList

/-- **C82 is violated**: a message that ends with a newline is put left of the text if there is room for it; the
marks are then in the next line, from its second column on.  No column of the line under the text is marked. -/
theorem C82_newline (pos length : Nat) (msg : Str) (hmsg : PlainMsg msg) (hroom : msg.length + 1 < pos) :
    ∃ line, reportErrorAt true pos length (msg ++ ['\n']) =
        line ++ ['\n'] ++ ([' '] ++ List.replicate (length - 1) '~' ++ ['^']) ++ ['\n'] ∧
      '\n' ∉ line ∧ ∀ i, ¬ Marked line i := by
  obtain ⟨hn, hc, ht⟩ := hmsg
  have hsp : ∀ k c, c ∈ List.replicate k ' ' → c = ' ' := fun k c h => (List.mem_replicate.mp h).2
  refine ⟨List.replicate (pos - (msg.length + 1) - 1) ' ' ++ msg, ?_, ?_, ?_⟩
  · unfold reportErrorAt
    rw [if_pos rfl, if_pos (by simp; omega)]
    simp
  · intro h
    rcases List.mem_append.mp h with h | h
    · exact absurd (hsp _ _ h) (by decide)
    · exact hn h
  · rintro i (h | h) <;> rcases List.mem_append.mp (List.mem_of_getElem? h) with h | h
    · exact absurd (hsp _ _ h) (by decide)
    · exact hc h
    · exact absurd (hsp _ _ h) (by decide)
    · exact ht h

/-- A command with step zero whose fourth argument is far enough to the right. -/
def longTable : Str := "table x + 1 + 2 + 3 + 4 + 5 + 6 + 7 ; 1 ; 2 ; 0".toList

/-- Where its arguments are, as the command computes it. -/
theorem longTable_args :
    (match stripAll (strSplit (longTable ++ [nul]) tableCommand.length tableDelims).1
      (strSplit (longTable ++ [nul]) tableCommand.length tableDelims).2 with
    | .ok (m, os) => (os, os.map (cstrAt m))
    | _ => ([], []))
    = ([6, 38, 42, 46], ["x + 1 + 2 + 3 + 4 + 5 + 6 + 7".toList, "1".toList, "2".toList, "0".toList]) := by
  decide +kernel

/-- **C82 is violated** by `longTable`: column 46, where the zero was typed, is not marked. -/
theorem C82_step_unmarked : ∃ line rest, reportErrorAt true 46 1 stepMessage = line ++ '\n' :: rest ∧ '\n' ∉ line ∧
    ∀ i, ¬ Marked line i := by
  obtain ⟨line, h1, h2, h3⟩ := C82_newline 46 1 "Error: 'step' must not be zero".toList (by decide +kernel) (by decide +kernel)
  refine ⟨line, [' ', '^', '\n'], ?_, h2, h3⟩
  have : stepMessage = "Error: 'step' must not be zero".toList ++ ['\n'] := by decide +kernel
  rw [this, h1]
  simp

end Verif.ConsoleProps
