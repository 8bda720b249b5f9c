import Verif.Lemmas.TableOutput
import Verif.Lemmas.PrintfText
import Verif.Props.Simplify

/-!
# What the table command prints (C88)
-/

namespace Verif.TableProps
open Verif Layout LayoutSpec Drawing DrawingSpec LayoutProps SessionProps TableSpec TextSpec StringProps HelpProps
variable {V ε ρ : Type} {K : Program V ε ρ} {L : List V → Op → List V → Except ε V} {ve : ε}

theorem tableExecText_pieces (inter : Bool) (fixed general : V → Str) (s : Session V ρ) (rest : Str) (hn : nul ∉ rest) :
    ∃ qs, Pieces rest qs ∧ (tableExec K s ("table ".toList ++ rest) =
        if qs.length ≠ 4 ∧ qs.length ≠ 6 then .ok (s, none) else tableExpr K s qs) ∧
      tableExecText K inter fixed general s ("table ".toList ++ rest) =
        if qs.length ≠ 4 ∧ qs.length ≠ 6 then .ok (s, none) else tablePrint K inter fixed general s qs := by
  obtain ⟨ps, hp⟩ := cut_exists rest tableDelims
  obtain ⟨m, os, m', os', h1, h2, h3, -⟩ := C55_pieces 't' "able ".toList rest tableDelims ps (by decide) hn (by decide) hp
  refine ⟨_, ⟨ps, hp, h3⟩, ?_⟩
  have hl1 := h3.length_eq
  have hlo : os.length = os'.length := by
    have : ∀ (os : List Nat) (m m' : Str) (os' : List Nat), stripAll m os = .ok (m', os') → os.length = os'.length := by
      intro os
      induction os with
      | nil => intro m m' os' h; cases h; rfl
      | cons o os ih =>
        intro m m' os' h
        rw [stripAll] at h
        obtain ⟨⟨m1, o1⟩, -, h⟩ := Res.bind_eq_ok.1 h
        obtain ⟨⟨m2, os2⟩, h4, h⟩ := Res.bind_eq_ok.1 h
        cases h
        simp [ih _ _ _ h4]
    exact this _ _ _ _ h2
  unfold tableExec tableExecText
  have e : strSplit ("table ".toList ++ rest ++ [nul]) tableCommand.length tableDelims = (m, os) := h1
  rw [e]
  simp only [List.length_map, hlo, h2, Out.of_ok, Out.bind_ok]
  exact ⟨trivial, trivial⟩

theorem print_end (z : Str) (general : V → Str) (o : Option V) : (match o with
    | none => pure z
    | some v => pure (z ++ "Fold result: ".toList ++ general v ++ "\n".toList) : Out Str) = .ok (z ++ foldLine general o) := by
  cases o with
  | none =>
    have e : foldLine general none = [] := rfl
    rw [e, List.append_nil]
    rfl
  | some v =>
    have e : foldLine general (some v) = "Fold result: ".toList ++ general v ++ ['\n'] := rfl
    have e1 : "\n".toList = ['\n'] := rfl
    rw [e, ← List.append_assoc, ← List.append_assoc, e1]
    rfl

/-- What is written for a table. -/
theorem tableText_eq (inter : Bool) {fixed general : V → Str} (hf : ∀ v, Plain (fixed v)) {title : Str} (ht : TidyLine true title)
    {var : Option Str} (hv : ∀ n ∈ var, Plain n) (out : TableOut V) :
    tableText inter fixed general (spaced title) var out = .ok (output (shown [.right, .right, .right]
      (tableCells inter fixed (var.map fun n => varColor ++ spaced n ++ colReset) (spaced title) out.rows)) ++
      foldLine general out.fold) := by
  have hval : ∀ o : Option V, Plain (valueText fixed o) := by
    intro o
    cases o with
    | none =>
      have : Plain "Error".toList := by unfold Plain; decide
      exact this
    | some v => exact hf v
  have hnum : ∀ i : Nat, Plain (toString i).toList := by
    intro i
    have e : (toString i).toList = Nat.toDigits 10 i := by
      show (Nat.repr i).toList = _
      simp [Nat.repr]
    rw [e]
    refine ⟨fun h => ?_, fun c hc => ?_⟩
    · have := @Nat.length_toDigits_pos 10 i
      rw [h] at this
      simp at this
    · have := Nat.isDigit_of_mem_toDigits (b := 10) (by decide) (by decide) hc
      simp only [Char.isDigit, Bool.and_eq_true, decide_eq_true_eq, UInt32.le_iff_toNat_le, ge_iff_le] at this
      exact ⟨Nat.le_trans (by decide) this.1, Nat.lt_of_le_of_lt this.2 (by decide)⟩
  have hcell : ∀ r ∈ tableCells inter fixed (var.map fun n => varColor ++ spaced n ++ colReset) (spaced title) out.rows,
      r.length ≤ maxCols ∧ ∀ x ∈ r, x = none ∨ ∃ y, x = some y ∧ TidyLine true y := by
    intro r hr
    cases inter with
    | false =>
      simp only [tableCells, Bool.false_eq_true, if_false] at hr
      obtain ⟨row, -, rfl⟩ := List.mem_map.1 hr
      refine ⟨by simp [maxCols], fun x hx => .inr ?_⟩
      simp only [List.mem_cons, List.not_mem_nil, or_false] at hx
      rcases hx with rfl | rfl
      · exact ⟨_, rfl, plain_spaced (hf _)⟩
      · exact ⟨_, rfl, plain_spaced (hval _)⟩
    | true =>
      simp only [tableCells, if_true] at hr
      rcases List.mem_cons.1 hr with rfl | hr
      · refine ⟨by simp [maxCols], fun x hx => ?_⟩
        simp only [List.mem_cons, List.not_mem_nil, or_false] at hx
        rcases hx with rfl | rfl | rfl
        · exact .inl rfl
        · cases var with
          | none => exact .inl rfl
          | some n => exact .inr ⟨_, rfl, tidy_var (hv n rfl)⟩
        · exact .inr ⟨_, rfl, tidy_spaced ht⟩
      · obtain ⟨⟨row, i⟩, -, rfl⟩ := List.mem_map.1 hr
        refine ⟨by simp [maxCols], fun x hx => .inr ?_⟩
        simp only [List.mem_cons, List.not_mem_nil, or_false] at hx
        rcases hx with rfl | rfl | rfl
        · exact ⟨_, rfl, plain_spaced (hnum _)⟩
        · exact ⟨_, rfl, plain_spaced (hf _)⟩
        · exact ⟨_, rfl, plain_spaced (hval _)⟩
  obtain ⟨-, t, t', h1, h2⟩ := C69 [.right, .right, .right] _ (by decide) (fun r hr => ⟨(hcell r hr).1, fun x hx => by
    rcases (hcell r hr).2 x hx with rfl | ⟨y, rfl, hy⟩
    · trivial
    · exact tidy_line hy⟩) fun r hr => by
      have : rowHeight r ≤ 1 := by
        unfold rowHeight
        have := (hcell r hr).2
        generalize r = r' at this
        induction r' with
        | nil => simp [largest]
        | cons x r ih =>
          simp only [List.map_cons, largest, List.foldr_cons] at ih ⊢
          refine Nat.max_le.2 ⟨?_, ih fun y hy => this y (by simp [hy])⟩
          rcases this x (by simp) with rfl | ⟨y, rfl, hy⟩
          · simp [cellLines]
          · rw [cellLines, linesOf_line (tidyLine_noNewline hy)]; simp
      exact Nat.le_trans this (by decide)
  unfold tableText
  rw [table_calls, h1, Out.of_ok, Out.bind_ok, h2, Out.bind_ok]
  exact print_end _ _ _

/-- **C88.** In every session (with definitions without brackets) the table command prints exactly what it computes, and
does nothing else than what is said in C43 and C44: if it succeeds with some rows and the result of a fold, the output is the table of
these rows, aligned to the right, in interactive mode with a header of the variable and the expression as it was
entered, and with numbers in front of the rows, followed by a line with the result of the fold; if it fails, it prints
nothing. -/
theorem C88_table (hK : SimpKeeps K.toClient) (hW : SimpWords K.toClient) (hfuel : K.fuel < sizeMax) {C : Str → Prop} (s : Session V ρ)
    (hs : Reach K.toClient TidyDef C s) (inter : Bool) (fixed general : V → Str) (hf : ∀ v, Plain (fixed v))
    (hg : ∀ v, Plain (general v)) (rest : Str) (hn : nul ∉ rest) :
    match tableExec K s ("table ".toList ++ rest) with
    | .ok (s', some out) => ∃ e more raw s1 te var title, Pieces rest (e :: more) ∧
        parseEasy s.ctx K.strtod e = .ok (some raw) ∧ treeToStr general raw = .ok (seen title) ∧
        arithParse K.toClient s e = .ok (s1, some te) ∧ (∀ n, n ∈ te.varNames ↔ var = some n) ∧
        tableExecText K inter fixed general s ("table ".toList ++ rest) = .ok (s', some (output (shown [.right, .right, .right]
          (tableCells inter fixed (var.map fun n => "\x1b[1;36m".toList ++ spaced n ++ "\x1b[0m".toList) (spaced title) out.rows)) ++
          foldLine general out.fold))
    | .ok (s', none) => tableExecText K inter fixed general s ("table ".toList ++ rest) = .ok (s', none)
    | .hang => tableExecText K inter fixed general s ("table ".toList ++ rest) = .hang
    | .defect => tableExecText K inter fixed general s ("table ".toList ++ rest) = .defect
    | .ub => tableExecText K inter fixed general s ("table ".toList ++ rest) = .ub := by
  obtain ⟨D, hD⟩ := hs.sess
  have ht := hs.tidy hK hfuel
  obtain ⟨qs, hq, he, het⟩ := tableExecText_pieces (K := K) inter fixed general s rest hn
  rw [he, het]
  by_cases hl : qs.length ≠ 4 ∧ qs.length ≠ 6
  · rw [if_pos hl, if_pos hl]
  rw [if_neg hl, if_neg hl]
  match qs, hl, hq with
  | e :: a :: b :: c :: more, hl, hq =>
    rw [tableExpr, tablePrint]
    cases hp : parseEasy s.ctx K.strtod e with
    | defect => simp [arithParse, hp, Out.of]
    | ub => simp [arithParse, hp, Out.of]
    | ok o =>
      cases o with
      | none => simp [arithParse, hp]
      | some raw =>
        obtain ⟨x, hx1, hx2, hx3⟩ := parsed_title hD.ctx hD.arity hp hg
        have e2 : tableTitle general raw = .ok (spaced x) := by
          rw [tableTitle, hx1]
          rfl
        simp only [Out.of_ok, Out.bind_ok, e2]
        cases ha : arithParse K.toClient s e with
        | hang => rfl
        | defect => rfl
        | ub => rfl
        | ok y =>
          obtain ⟨s1, o⟩ := y
          cases o with
          | none => rfl
          | some te =>
            simp only [Out.bind_ok]
            have hw := arithParse_words hW hfuel hD ht ha
            obtain ⟨h3, h4⟩ := listVariables_one te
            cases hsuf : (listVariables 1 te).sufficient with
            | false => rfl
            | true =>
              obtain ⟨h5, f, h6⟩ := h4 hsuf
              simp only [Bool.not_true, Bool.false_eq_true, if_false]
              have hlen : (addNew [] te.names).length ≤ 1 := by
                by_contra hc
                rw [listVariables_bad hc] at hsuf
                cases hsuf
              have hvars : (listVariables 1 te).vars = addNew [] te.names := by rw [listVariables_ok hlen]
              have hmem : ∀ n, n ∈ te.names ↔ (listVariables 1 te).vars.head? = some n := by
                intro n
                rw [hvars]
                constructor
                · intro hn
                  have : n ∈ addNew [] te.names := (addNew_mem).2 (.inr hn)
                  match h : addNew [] te.names, hlen, this with
                  | [m], _, this => rw [List.mem_singleton.1 this]; rfl
                  | _ :: _ :: _, hlen, _ => simp at hlen
                · intro h
                  have := List.mem_of_head? h
                  rcases (addNew_mem).1 this with h | h
                  · cases h
                  · exact h
              cases hb : tableBounds K s1 (listVariables 1 te).tree (listVariables 1 te).vars.head? [a, b, c] more with
              | hang => rfl
              | defect => rfl
              | ub => rfl
              | ok z =>
                obtain ⟨s2, o⟩ := z
                cases o with
                | none => rfl
                | some out =>
                  simp only [Out.bind_ok]
                  refine ⟨e, _, raw, s1, te, (listVariables 1 te).vars.head?, x, hq, hp, hx2, ha, ?_, ?_⟩
                  · intro n; rw [varNames_eq]; exact hmem n
                  · rw [tableText_eq inter hf hx3 fun n hn => isWord_plain (hw n ((hmem n).2 hn))]
                    rfl
  | [], hl, _ => simp at hl
  | [_], hl, _ => simp at hl
  | [_, _], hl, _ => simp at hl
  | [_, _, _], hl, _ => simp at hl

/-- The shipped rules and those of no file at all make no strange names. -/
theorem C88_words {σ : Type} {strtod : Str → Option V} {D : Doubles V} (hD : D.Sane)
    {arith : σ → List V → Op → List V → Except ε V} {ve : ε} {next : SimplifyProps.World σ → SimplifyProps.World σ} {f : ℚ → V} {fuel : Nat} :
    SimpWords (SimplifyProps.client strtod D arith ve next f fuel) := by
  intro w h t w' u ht hw hs
  obtain ⟨r, h1, h2⟩ := Out.bind_eq_ok.1 hs
  simp only [Out.pure_eq, Out.ok.injEq, Prod.mk.injEq] at h2
  obtain ⟨-, rfl⟩ := h2
  intro n hn
  by_cases hl : w.loaded
  · rw [if_pos hl] at h1
    rcases (SimplifyProps.C79_result _ hD f ht h1).2.1 n (by rw [varNames_eq]; exact hn) with h | rfl
    · exact hw n (by rwa [varNames_eq] at h)
    · decide
  · rw [if_neg hl] at h1
    simp only [Machine.simplify, SimplifyProps.noRules, Bool.not_false, if_true] at h1
    obtain ⟨x, hx⟩ := (Machine.fold_within _ (SimplifyProps.within_self ht) h1).names hn
    rcases hx with h | rfl
    · exact hw n (by rwa [varNames_eq] at h)
    · decide

/-- A program that does not simplify, with numbers written as `printf` does: a session to which the theorem applies. -/
example : SimpKeeps W.toClient ∧ SimpWords W.toClient ∧ W.fuel < sizeMax ∧ (∀ v, Plain (Printf.fixed10 v)) ∧
    (∀ v, Plain (Printf.general10 v)) ∧ ∃ s, initSession () = .ok s ∧ Reach W.toClient TidyDef (fun _ => True) s := by
  refine ⟨?_, ?_, by decide, Printf.fixed10_plain, Printf.general10_plain, ?_⟩
  · intro w h t w' u ht hs
    cases hs
    exact ht
  · intro w h t w' u ht hw hs
    cases hs
    exact hw
  · have h : ∃ s : Session Dbl Unit, initSession () = .ok s := by
      have key : (match (initSession () : Res (Session Dbl Unit)) with | .ok _ => true | _ => false) = true := by decide +kernel
      revert key
      split
      · rename_i s h; exact fun _ => ⟨s, h⟩
      · intro h; cases h
    obtain ⟨s, h⟩ := h
    exact ⟨s, h, .start h⟩

/-- The rows of the command `table 6/x; 2 ; 1-2 ; 1 fold x+y;1`. -/
def someRows : List (TableRow Dbl) := [⟨.fin 2, some (.fin 3)⟩, ⟨.fin 1, some (.fin 6)⟩, ⟨.fin 0, none⟩, ⟨.fin (-1), some (.fin (-6))⟩]

/-- What is shown of them on a terminal (without the colour of the variable). -/
example : output (shown [.right, .right, .right] (tableCells true Printf.fixed10 (some (spaced "x".toList)) (spaced "6/x".toList) someRows)) ++
    foldLine Printf.general10 (some (.fin 4)) =
    ("                x            6/x \n" ++
     " 1   2.0000000000   3.0000000000 \n" ++
     " 2   1.0000000000   6.0000000000 \n" ++
     " 3   0.0000000000          Error \n" ++
     " 4  -1.0000000000  -6.0000000000 \n" ++
     "Fold result: 4\n").toList := by decide +kernel

/-- What goes to a file. -/
example : output (shown [.right, .right, .right] (tableCells false Printf.fixed10 none [] someRows)) =
    ("  2.0000000000   3.0000000000 \n" ++
     "  1.0000000000   6.0000000000 \n" ++
     "  0.0000000000          Error \n" ++
     " -1.0000000000  -6.0000000000 \n").toList := by decide +kernel

end Verif.TableProps
