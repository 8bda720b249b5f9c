import Verif.Model.Help
import Verif.Props.Drawing
import Verif.Props.Layout
import Verif.Lemmas.Texts

/-!
# The help (C87)
-/

namespace Verif.HelpProps
open Help Layout LayoutSpec Drawing DrawingSpec DrawingProps LayoutProps SessionProps
variable {V ε ρ : Type}

/-! ## Operators -/

theorem opsLoop_append (B : List Op) : ∀ (A : List Op) (n : Nat) (r : Int), n ≤ A.length → opsLoop (A ++ B) n r = opsLoop A n r := by
  intro A
  induction A with
  | nil =>
    intro n r h
    obtain rfl : n = 0 := by simpa using h
    cases B <;> simp [opsLoop]
  | cons o A ih =>
    intro n r h
    cases n with
    | zero => rfl
    | succ n =>
      simp only [List.length_cons] at h
      simp only [List.cons_append, opsLoop]
      rw [ih _ _ (by omega), ih _ _ (by omega)]

/-- The built-in operators. -/
def builtinOps : List Op := arithOps.zipIdx.map fun x => { x.1 with id := x.2 }

theorem ops_split (K : Client V ε ρ) (s : Session V ρ) (hs : Reachable K s) : ∃ us, s.ctx.ops.map (·.2) = builtinOps ++ us := by
  obtain ⟨D, hD⟩ := hs.sess
  obtain ⟨as, h3, h4⟩ := hD.ctx.ops
  refine ⟨(as.zip (D.map (·.op))).map (·.2), ?_⟩
  rw [h4, List.map_append]
  congr 1

theorem between_append (us : List Op) (a b : Nat) (h : b ≤ 58) (ha : a < b) :
    printOpsBetween (builtinOps ++ us) a b = printOpsBetween builtinOps a b := by
  have hl : builtinOps.length = 58 := by decide +kernel
  unfold printOpsBetween
  rw [if_neg (by simp; omega), if_neg (by omega), List.drop_append_of_le_length (by omega), opsLoop_append _ _ _ _ (by simp; omega)]

/-- What is seen of the lists of operators. -/
def operatorsText : String :=
  "\nPseudo operators:\n$x @x x' deriv(2) " ++
  "\nBasic operators:\nx+y x-y x*y x/y x^y x C y x mod y +x -x x! x% exp(1) root(2) sqrt(1) log(2) ln(1) \nld(1) lg(1) " ++
  "\nTrigonometric functions:\nsin(1) cos(1) tan(1) asin(1) acos(1) atan(1) sinh(1) cosh(1) tanh(1) asinh(1) acosh(1) \natanh(1) " ++
  "\nMiscellaneous functions:\nmax(*) min(*) abs(1) ceil(1) floor(1) round(1) trunc(1) frac(1) sgn(1) sum(*) prod(*) \n" ++
  "avg(*) gcd(2) lcm(2) rand(2) fib(1) gamma(1) var(*) " ++
  "\nConstants:\npi e phi clight csound ans \n"

/-- **C87.** Whatever has been entered, `help` shows the same lists of operators. -/
theorem C87_sections (K : Client V ε ρ) (s : Session V ρ) (hs : Reachable K s) :
    ∃ t, sections (s.ctx.ops.map (·.2)) = .ok t ∧ seen t = operatorsText.toList := by
  obtain ⟨us, e⟩ := ops_split K s hs
  have h : sections (s.ctx.ops.map (·.2)) = sections builtinOps := by
    unfold sections
    rw [e, between_append us 0 4 (by omega) (by omega), between_append us 4 22 (by omega) (by omega),
      between_append us 22 34 (by omega) (by omega), between_append us 34 52 (by omega) (by omega),
      between_append us 52 58 (by omega) (by omega)]
  rw [h]
  have key : (match sections builtinOps with | .ok t => decide (seen t = operatorsText.toList) | _ => false) = true := by
    decide +kernel
  split at key
  · rename_i t ht
    exact ⟨t, ht, of_decide_eq_true key⟩
  · cases key

/-- The lists are meant for 80 columns (`TTY_WIDTH`), but lines are longer: the line is ended behind the operator
that does not fit. -/
theorem C87_too_wide : ∃ l ∈ linesOf operatorsText.toList, l.length = 87 := by decide +kernel

/-- Columns of a row of operators, with the blanks behind them. -/
def rowWidth (os : List Op) : Nat := (os.map fun o => (usage o).length + 1).sum

/-- A row of operators in colours. -/
def rowText (os : List Op) : Str := os.flatMap fun o => (printOp o).1

theorem rowText_append (a b : List Op) : rowText (a ++ b) = rowText a ++ rowText b := List.flatMap_append

theorem wrapped (os : List Op) : ∀ (n : Nat) (pre : List Op), rowWidth pre < 80 →
    ∃ (full : List (List Op)) (last : List Op), full.flatten ++ last = pre ++ os.take n ∧
      rowText pre ++ opsLoop os n (80 - rowWidth pre) = full.flatMap (fun r => rowText r ++ ['\n']) ++ rowText last ∧
      (∀ r ∈ full, rowWidth r.dropLast < 80 ∧ 80 ≤ rowWidth r) ∧ rowWidth last < 80 := by
  induction os with
  | nil => intro n pre h; exact ⟨[], pre, by simp, by simp [opsLoop], by simp, h⟩
  | cons o os ih =>
    intro n pre h
    cases n with
    | zero => exact ⟨[], pre, by simp, by simp [opsLoop], by simp, h⟩
    | succ n =>
      have hw : rowWidth (pre ++ [o]) = rowWidth pre + ((usage o).length + 1) := by simp [rowWidth]
      have ht : rowText (pre ++ [o]) = rowText pre ++ (printOp o).1 := by simp [rowText]
      by_cases hc : 80 ≤ rowWidth (pre ++ [o])
      · obtain ⟨full, last, h1, h2, h3, h4⟩ := ih n [] (by decide)
        refine ⟨(pre ++ [o]) :: full, last, ?_, ?_, ?_, h4⟩
        · simpa using h1
        · have e : opsLoop (o :: os) (n + 1) (80 - rowWidth pre) = (printOp o).1 ++ '\n' :: opsLoop os n 80 := by
            simp only [opsLoop]
            rw [if_pos (by simp only [printOp]; omega)]
            rfl
          have h2 : opsLoop os n 80 = full.flatMap (fun r => rowText r ++ ['\n']) ++ rowText last := by
            simpa [rowWidth, rowText] using h2
          rw [e, h2, List.flatMap_cons, ht]
          simp
        · intro r hr
          rcases List.mem_cons.mp hr with rfl | hr
          · exact ⟨by simpa using h, hc⟩
          · exact h3 r hr
      · obtain ⟨full, last, h1, h2, h3, h4⟩ := ih n (pre ++ [o]) (by omega)
        refine ⟨full, last, by simpa using h1, ?_, h3, h4⟩
        have e : opsLoop (o :: os) (n + 1) (80 - rowWidth pre) = (printOp o).1 ++ opsLoop os n (80 - rowWidth (pre ++ [o])) := by
          simp only [opsLoop]
          rw [if_neg (by simp only [printOp]; omega)]
          congr 2
          simp only [printOp]; omega
        rw [e, ← List.append_assoc, ← ht]
        exact h2

/-- **C87**, the width (partial: a line may be too long by its last operator).  A list of operators is printed completely
and in order; a line is ended as soon as it has 80 columns or more. -/
theorem C87_wrapped_partial (os : List Op) (first last : Nat) (t : Str) (h : printOpsBetween os first last = .ok t) :
    ∃ (full : List (List Op)) (rest : List Op), full.flatten ++ rest = (os.drop first).take (last - first) ∧
      t = full.flatMap (fun r => rowText r ++ ['\n']) ++ rowText rest ∧
      (∀ r ∈ full, rowWidth r.dropLast < 80 ∧ 80 ≤ rowWidth r) ∧ rowWidth rest < 80 := by
  unfold printOpsBetween at h
  split at h
  · cases h
  · cases h
    obtain ⟨full, rest, h1, h2, h3⟩ := wrapped (os.drop first) (last - first) [] (by decide)
    exact ⟨full, rest, h1, by simpa [rowWidth, rowText, ttyWidth] using h2, h3⟩

example : ∃ t, printOpsBetween builtinOps 22 34 = .ok t := ⟨_, rfl⟩

/-! ## Commands and functions -/

theorem printed_rows (rows : List (List (Option Str))) (hrows : ∀ r ∈ rows, r.length ≤ maxCols ∧ ∀ s ∈ r, LayoutSpec.Tidy s)
    (hh : ∀ r ∈ rows, rowHeight r ≤ 2 ^ 31) : Help.printed (rowCalls rows) = .ok (output (shown [] rows)) := by
  obtain ⟨⟨t, t', h1, h2⟩, -⟩ := C69 [] rows (by decide) hrows hh
  have e : calls (.setAligns [] [] :: rowCalls rows) empty = calls (rowCalls rows) empty := by
    simp [calls, call, setAligns, maxCols]
  rw [e] at h1
  unfold Help.printed
  rw [h1, Out.of_ok, Out.bind_ok, h2]
  rfl

/-- The lines of the table of commands. -/
def commandLines : List String :=
    ["<func|const> = <after>                 Adds function or constant                                ",
     "table <expr> ; <from> ; <to> ; <step>  Prints table of values                                   ",
     "   [fold <expr> ; <init>]                                                                       ",
     "load [simplification] <path>           Executes commands or loads simplification ruleset in file",
     "clear [<func>]                         Clears all or one function or constant                   ",
     "help [operators]                       Shows this message or a verbose list of all operators    ",
     "license                                Shows information about ccalc's license                  ",
     "quit                                   Closes application                                       "]

/-- **C87.** The table of commands: the two rows that are not initialised do not show. -/
theorem C87_commands : Help.printed (arrayCalls commandTable) = .ok (output (commandLines.map String.toList)) := by
  have e : arrayCalls commandTable = rowCalls commandTable := rfl
  have tidy : ∀ r ∈ commandTable, r.length ≤ maxCols ∧ ∀ s ∈ r, LayoutSpec.Tidy s := by
    have key : ∀ r ∈ commandTable, r.length ≤ maxCols ∧ ∀ s ∈ r, s = none ∨ ∃ x ∈ s, x.head? ≠ some '\n' ∧
        ∀ c ∈ x, c ≠ Char.ofNat 27 ∧ c.toNat < 128 := by decide +kernel
    intro r hr
    refine ⟨(key r hr).1, fun s hs => ?_⟩
    rcases (key r hr).2 s hs with rfl | ⟨x, hx, h1, h2⟩
    · trivial
    · cases hx
      exact tidy_of h1 h2
  rw [e, printed_rows _ tidy (by decide +kernel)]
  exact congrArg (fun x => Out.ok (output x)) (by decide +kernel)

/-- How a function is called. -/
def callText (name : Str) (params : List Str) : Str :=
  if params = [] then name else name ++ '(' :: (List.intercalate [','] params ++ [')'])

theorem printArgs_vars (fmt : V → Str) {ps : List Str} : ∀ {cs : List (Tree V)},
    List.Forall₂ (fun c n => ∃ x i, c = Tree.var n x i) cs ps →
    ∃ ts, printArgs fmt id cs = .ok ts ∧ ts.flatten = List.intercalate [','] ps := by
  induction ps with
  | nil => intro cs h; cases h; exact ⟨[], by rw [printArgs], rfl⟩
  | cons n ps ih =>
    intro cs h
    cases h with
    | @cons c _ cs _ h1 h2 =>
      obtain ⟨x, i, rfl⟩ := h1
      cases h2 with
      | nil => exact ⟨[n], by simp [printArgs, printTree, Res.bind], by simp [List.intercalate]⟩
      | @cons c' n' cs ps h3 h4 =>
        obtain ⟨ts, e1, e2⟩ := ih (.cons h3 h4)
        refine ⟨[n] ++ commaP :: ts, ?_, ?_⟩
        · rw [printArgs, printTree]
          simp only [Res.bind, e1, id]
        · have : List.intercalate [','] (n :: n' :: ps) = n ++ ',' :: List.intercalate [','] (n' :: ps) := by
            simp [List.intercalate, List.intersperse]
          rw [this, ← e2]
          simp [commaP]

theorem withIds_vars {f : Str → Nat} {ps : List Str} : ∀ {cs : List (Tree V)},
    List.Forall₂ (fun c n => ∃ x i, c = Tree.var n x i) cs ps →
    List.Forall₂ (fun c n => ∃ x i, c = Tree.var n x i) (Tree.withIdsList f cs) ps := by
  intro cs h
  induction h with
  | nil => exact .nil
  | cons h _ ih =>
    obtain ⟨x, i, rfl⟩ := h
    exact .cons ⟨_, _, rfl⟩ ih

/-- The left side of a rule of a user function, printed. -/
theorem left_text (K : Client V ε ρ) (s : Session V ρ) (hs : Reachable K s) (fmt : V → Str) (r : RewriteRule V) (hr : r ∈ s.funs) :
    ∃ o ps, (∃ cs tok, r.pattern.tree = .op o cs tok ∧ List.Forall₂ (fun c n => ∃ x i, c = Tree.var n x i) cs ps) ∧
      treeToStr fmt r.pattern.tree = .ok (callText o.name ps) := by
  obtain ⟨D, hD⟩ := hs.sess
  obtain ⟨d, hd, hdef⟩ : ∃ d ∈ D, IsDef r d := by
    have := hD.rules
    generalize s.funs = F at hr this
    clear hD
    revert hr
    induction this with
    | nil => simp
    | @cons a b l l' h _ ih =>
      intro hr
      rcases List.mem_cons.mp hr with rfl | hr
      · exact ⟨b, by simp, h⟩
      · obtain ⟨d, h1, h2⟩ := ih hr
        exact ⟨d, by simp [h1], h2⟩
  obtain ⟨cs, tok, h1, h2⟩ := hdef.accepted
  obtain ⟨-, h3, -, -⟩ := h2.spec
  have ht := h3.tree
  have hu : UserFn d.op := hD.ctx.user _ (List.mem_map_of_mem hd)
  have e : r.pattern.tree = .op d.op (Tree.withIdsList (addNew [] (Tree.op d.op cs tok).names).idxOf cs) tok := by
    rw [ht]; rfl
  have hv := withIds_vars (f := (addNew [] (Tree.op d.op cs tok).names).idxOf) h1
  refine ⟨d.op, d.params, ⟨_, tok, e, hv⟩, ?_⟩
  rw [e, treeToStr, printTree.eq_def]
  simp only [hu.placement, hD.arity d hd]
  unfold callText
  by_cases hp : d.params = []
  · simp [hp, Res.bind]
  · have hl : d.params.length ≠ 0 := fun h => hp (List.eq_nil_of_length_eq_zero h)
    obtain ⟨ts, e1, e2⟩ := printArgs_vars fmt hv
    rw [if_pos (by simpa using hl), e1, if_neg hp]
    simp only [Res.bind, Res.ok.injEq, ← e2]
    simp [openP, closeP]

/-- **C87.** The functions of the user are listed in the order of their definition, one in each row: how it is called,
an equals sign, and its body.  (The texts have to be printable ASCII, and it must be possible to print the bodies.) -/
theorem C87_functions (K : Client V ε ρ) (s : Session V ρ) (hs : Reachable K s) (fmt : V → Str)
    (hf : ∀ r ∈ s.funs, Texts fmt Plain r.pattern.tree ∧ Texts fmt Plain r.after ∧ ∃ p, treeToStr fmt r.after = .ok p)
    (hne : s.funs ≠ []) :
    ∃ rows, functionTable fmt s.funs = .ok ("User-defined functions and constants:\n".toList ++ output (shown [] rows)) ∧
      List.Forall₂ (fun r row => ∃ l q o ps, row = [some l, some " = ".toList, some q] ∧
        (∃ cs tok, r.pattern.tree = .op o cs tok ∧ List.Forall₂ (fun c n => ∃ x i, c = Tree.var n x i) cs ps) ∧
        seen l = callText o.name ps ∧ treeToStr fmt r.after = .ok (seen q)) s.funs rows := by
  have lits : lit " = " = " = ".toList := by decide +kernel
  have key : ∀ l : List (RewriteRule V), (∀ r ∈ l, r ∈ s.funs) → ∃ rows, functionCalls fmt l = .ok (rowCalls rows) ∧
      (∀ r ∈ rows, r.length ≤ maxCols ∧ (∀ s ∈ r, LayoutSpec.Tidy s) ∧ rowHeight r ≤ 2 ^ 31) ∧
      List.Forall₂ (fun r row => ∃ l q o ps, row = [some l, some " = ".toList, some q] ∧
        (∃ cs tok, r.pattern.tree = .op o cs tok ∧ List.Forall₂ (fun c n => ∃ x i, c = Tree.var n x i) cs ps) ∧
        seen l = callText o.name ps ∧ treeToStr fmt r.after = .ok (seen q)) l rows := by
    intro l
    induction l with
    | nil => intro _; exact ⟨[], rfl, by simp, .nil⟩
    | cons r l ih =>
      intro hl
      obtain ⟨rows, h1, h2, h3⟩ := ih fun r hr => hl r (by simp [hr])
      have hr := hl r (by simp)
      obtain ⟨p1, p2, q, p3⟩ := hf r hr
      obtain ⟨o, ps, hshape, hleft⟩ := left_text K s hs fmt r hr
      have noEsc : ∀ {t : Tree V}, Texts fmt Plain t → Texts fmt NoEscape t := by
        intro t ht
        induction ht with
        | const h => exact .const fun e => absurd (h.2 _ e).1 (by decide)
        | var h => exact .var fun e => absurd (h.2 _ e).1 (by decide)
        | op h _ ih => exact .op (fun e => absurd (h.2 _ e).1 (by decide)) ih
      obtain ⟨a, ha, ha'⟩ := (C85_same_text fmt _ (noEsc p1)).1 _ hleft
      obtain ⟨b, hb, hb'⟩ := (C85_same_text fmt _ (noEsc p2)).1 _ p3
      have ta := (C85_width fmt _ p1 a ha).1
      have tb := (C85_width fmt _ p2 b hb).1
      refine ⟨[some a, some " = ".toList, some b] :: rows, ?_, ?_, .cons ⟨a, b, o, ps, rfl, hshape, ha', hb'.symm ▸ p3⟩ h3⟩
      · simp only [functionCalls, ha, hb, h1, Res.bind_ok, Res.pure_eq, lits]
        rfl
      · intro x hx
        rcases List.mem_cons.mp hx with rfl | hx
        · refine ⟨by simp [maxCols], fun y hy => ?_, ?_⟩
          · simp only [List.mem_cons, List.not_mem_nil, or_false] at hy
            rcases hy with rfl | rfl | rfl
            · exact tidy_line ta
            · exact tidy_of (by decide) (by decide)
            · exact tidy_line tb
          · have e : linesOf " = ".toList = [" = ".toList] := by decide +kernel
            simp only [rowHeight, List.map_cons, List.map_nil, cellLines, linesOf_line (tidyLine_noNewline ta),
              linesOf_line (tidyLine_noNewline tb), e, List.length_cons, List.length_nil]
            decide
        · exact h2 x hx
  obtain ⟨rows, h1, h2, h3⟩ := key s.funs fun _ h => h
  refine ⟨rows, ?_, h3⟩
  have hlen : s.funs.length > 0 := List.length_pos_iff.mpr hne
  have title : lit "User-defined functions and constants:\n" = "User-defined functions and constants:\n".toList := by decide +kernel
  rw [functionTable, if_pos hlen, h1, Out.of_ok, Out.bind_ok,
    printed_rows rows (fun r hr => ⟨(h2 r hr).1, (h2 r hr).2.1⟩) fun r hr => (h2 r hr).2.2, title]
  rfl

/-- **C87.** What `help` prints: the commands, the operators and the functions of the user. -/
theorem C87_short (K : Client V ε ρ) (s : Session V ρ) (hs : Reachable K s) (fmt : V → Str)
    (hf : ∀ r ∈ s.funs, Texts fmt Plain r.pattern.tree ∧ Texts fmt Plain r.after ∧ ∃ p, treeToStr fmt r.after = .ok p) :
    ∃ t f, shortHelp fmt s = .ok (output (commandLines.map String.toList) ++ t ++ f) ∧ seen t = operatorsText.toList ∧
      (s.funs = [] → f = []) ∧
      (s.funs ≠ [] → ∃ rows, f = "User-defined functions and constants:\n".toList ++ output (shown [] rows) ∧
        List.Forall₂ (fun r row => ∃ l q o ps, row = [some l, some " = ".toList, some q] ∧
          (∃ cs tok, r.pattern.tree = .op o cs tok ∧ List.Forall₂ (fun c n => ∃ x i, c = Tree.var n x i) cs ps) ∧
          seen l = callText o.name ps ∧ treeToStr fmt r.after = .ok (seen q)) s.funs rows) := by
  obtain ⟨t, h1, h2⟩ := C87_sections K s hs
  by_cases hne : s.funs = []
  · refine ⟨t, [], ?_, h2, fun _ => rfl, fun h => absurd hne h⟩
    rw [shortHelp, C87_commands, h1, functionTable, hne]
    rfl
  · obtain ⟨rows, h3, h4⟩ := C87_functions K s hs fmt hf hne
    refine ⟨t, _, ?_, h2, fun h => absurd h hne, fun _ => ⟨rows, rfl, h4⟩⟩
    rw [shortHelp, C87_commands, h1, h3]
    rfl

/-- **C87.** After definitions without brackets `help` always succeeds. -/
theorem C87_help (K : Client V ε ρ) (hK : SimpKeeps K) (hfuel : K.fuel < sizeMax) (C : Str → Prop) (s : Session V ρ)
    (hs : Reach K TidyDef C s) (fmt : V → Str) (hfmt : ∀ v, Plain (fmt v)) :
    ∃ t f, shortHelp fmt s = .ok (output (commandLines.map String.toList) ++ t ++ f) ∧ seen t = operatorsText.toList ∧
      (s.funs = [] → f = []) ∧
      (s.funs ≠ [] → ∃ rows, f = "User-defined functions and constants:\n".toList ++ output (shown [] rows) ∧
        List.Forall₂ (fun r row => ∃ l q o ps, row = [some l, some " = ".toList, some q] ∧
          (∃ cs tok, r.pattern.tree = .op o cs tok ∧ List.Forall₂ (fun c n => ∃ x i, c = Tree.var n x i) cs ps) ∧
          seen l = callText o.name ps ∧ treeToStr fmt r.after = .ok (seen q)) s.funs rows) := by
  have ht := hs.tidy hK hfuel
  have hp : ∀ r ∈ s.funs, ∀ n ∈ r.pattern.tree.names, Plain n := fun r hr n hn => isWord_plain (hs.params_words r hr n hn)
  refine C87_short K s (hs.mono (fun _ _ _ => trivial) fun _ _ => trivial) fmt fun r hr => ?_
  obtain ⟨D, hD⟩ := hs.sess
  obtain ⟨d, hd, hdef⟩ := forall2_left hD.rules hr
  have hpar := hdef.params
  obtain ⟨-, hsub, hafter, ps, tok, hpat, -⟩ := hdef.shape
  have hu : UserFn d.op := hD.ctx.user _ (List.mem_map_of_mem hd)
  have hb := ht.bodies r hr
  refine ⟨?_, ?_, ?_⟩
  · obtain ⟨cs, tok', h1, h2⟩ := hdef.accepted
    refine texts_of hfmt _ ?_ fun n hn => hp r hr n hn
    have e : r.pattern.tree = (Tree.op d.op cs tok').withIds (addNew [] (Tree.op d.op cs tok').names).idxOf := h2.spec.2.1.tree
    rw [e, AllOps.withIds]
    refine .op (isWord_plain hu.name) fun c hc => ?_
    obtain ⟨n, -, x, i, rfl⟩ := forall2_left h1 hc
    exact .var
  · refine texts_of hfmt _ (hb.mono fun o n h => (builtIn_prints h).1) fun n hn => hp r hr n ?_
    rw [hafter, names_withIds] at hn
    rw [hpar]
    exact hsub n hn
  · obtain ⟨ps, h⟩ := builtIn_tree_prints fmt id _ hb false false
    exact ⟨ps.flatten, by rw [treeToStr, h]; rfl⟩

/-! ## Tables of operators -/

theorem opRows_append (fmt : V → Str) (eval : Op → Except EvalErr V) (c : Columns) (us : List Op) : ∀ (A : List Op) (ds : List Str),
    ds.length = A.length → opRows fmt eval c (A ++ us) ds = opRows fmt eval c A ds := by
  intro A
  induction A with
  | nil =>
    intro ds h
    obtain rfl : ds = [] := by simpa using h
    cases us <;> simp [opRows]
  | cons o A ih =>
    intro ds h
    cases ds with
    | nil => simp at h
    | cons d ds =>
      simp only [List.cons_append, opRows]
      rw [ih ds (by simpa using h)]

theorem opRows_novalue (fmt : V → Str) (eval : Op → Except EvalErr V) (c : Columns) (hc : c.value = false) : ∀ (os : List Op) (ds : List Str),
    opRows fmt eval c os ds = opRows (V := Unit) (fun _ => []) (fun _ => .ok ()) c os ds := by
  intro os
  induction os with
  | nil => intro ds; simp [opRows]
  | cons o os ih =>
    intro ds
    cases ds with
    | nil => simp [opRows]
    | cons d ds => simp only [opRows, opRow, hc, ih, Bool.false_eq_true, if_false]

/-- The tables of `help operators` without that of the constants. -/
def operatorTables : List (Columns × List (List String)) :=
 [(⟨.infix, true, true, false, false⟩,
  [[" Name ", " Precedence ", " Assoc. ", " Description "],
   [" + ", " 2 ", " Left ", " Addition "],
   [" - ", " 2 ", " Left ", " Subtraction "],
   [" * ", " 4 ", " Left ", " Multiplication "],
   [" / ", " 3 ", " Left ", " Division "],
   [" ^ ", " 5 ", " Right ", " Exponentiation "],
   [" C ", " 1 ", " Left ", " Binomial coefficient "],
   [" mod ", " 1 ", " Left ", " Modulo operator "]]),
  (⟨.prefix, false, true, false, false⟩,
  [[" Name ", " Precedence ", " Description "],
   [" $ ", " 0 ", " Identity to parse rest of expression as if put in parentheses "],
   [" @ ", " 8 ", " History operator "],
   [" + ", " 7 ", " Identity "],
   [" - ", " 7 ", " Negation "]]),
  (⟨.postfix, false, true, false, false⟩,
  [[" Name ", " Precedence ", " Description "],
   [" ' ", " 7 ", " Derivative shorthand "],
   [" ! ", " 6 ", " Factorial "],
   [" % ", " 6 ", " Division by 100 "]]),
  (⟨.function, false, false, true, false⟩,
  [[" Name ", " Arity ", " Description "],
   [" deriv ", " 2 ", " Derivative of expression with respect to variable "],
   [" exp ", " 1 ", " Natural exponential function "],
   [" root ", " 2 ", " nth root of x "],
   [" sqrt ", " 1 ", " Square root "],
   [" log ", " 2 ", " Logarithm to base n "],
   [" ln ", " 1 ", " Natural logarithm "],
   [" ld ", " 1 ", " Binary logarithm "],
   [" lg ", " 1 ", " Logarithm to base 10 "],
   [" sin ", " 1 ", " Sine "],
   [" cos ", " 1 ", " Cosine "],
   [" tan ", " 1 ", " Tangent "],
   [" asin ", " 1 ", " Inverse sine "],
   [" acos ", " 1 ", " Inverse cosine "],
   [" atan ", " 1 ", " Inverse tangens "],
   [" sinh ", " 1 ", " Hyperbolic sine "],
   [" cosh ", " 1 ", " Hyperbolic cosine "],
   [" tanh ", " 1 ", " Hyperbolic tangent "],
   [" asinh ", " 1 ", " Inverse hyperbolic sine "],
   [" acosh ", " 1 ", " Inverse hyperbolic cosine "],
   [" atanh ", " 1 ", " Inverse hyperbolic tangent "],
   [" max ", " * ", " Maximum "],
   [" min ", " * ", " Minimum "],
   [" abs ", " 1 ", " Absolute value "],
   [" ceil ", " 1 ", " Round up to nearest integer "],
   [" floor ", " 1 ", " Round down to nearest integer "],
   [" round ", " 1 ", " Round to nearest integer "],
   [" trunc ", " 1 ", " Round towards zero to nearest integer "],
   [" frac ", " 1 ", " Fractional part of x "],
   [" sgn ", " 1 ", " Sign of x (-1, 0, 1) "],
   [" sum ", " * ", " Sum of all operands "],
   [" prod ", " * ", " Product of all operands "],
   [" avg ", " * ", " Arithmetic mean of all operands "],
   [" gcd ", " 2 ", " Greatest common divisor "],
   [" lcm ", " 2 ", " Least common multiple "],
   [" rand ", " 2 ", " Random integer between min and max (exclusive) "],
   [" fib ", " 1 ", " Fibonacci sequence "],
   [" gamma ", " 1 ", " Gamma function "],
   [" var ", " * ", " Variance of a population "]])]

/-- The lines of these tables. -/
def operatorLines : List (List String) :=
 [[" Name  Precedence  Assoc.  Description          ",
   " +              2  Left    Addition             ",
   " -              2  Left    Subtraction          ",
   " *              4  Left    Multiplication       ",
   " /              3  Left    Division             ",
   " ^              5  Right   Exponentiation       ",
   " C              1  Left    Binomial coefficient ",
   " mod            1  Left    Modulo operator      "],
  [" Name  Precedence  Description                                                   ",
   " $              0  Identity to parse rest of expression as if put in parentheses ",
   " @              8  History operator                                              ",
   " +              7  Identity                                                      ",
   " -              7  Negation                                                      "],
  [" Name  Precedence  Description          ",
   " '              7  Derivative shorthand ",
   " !              6  Factorial            ",
   " %              6  Division by 100      "],
  [" Name   Arity  Description                                       ",
   " deriv      2  Derivative of expression with respect to variable ",
   " exp        1  Natural exponential function                      ",
   " root       2  nth root of x                                     ",
   " sqrt       1  Square root                                       ",
   " log        2  Logarithm to base n                               ",
   " ln         1  Natural logarithm                                 ",
   " ld         1  Binary logarithm                                  ",
   " lg         1  Logarithm to base 10                              ",
   " sin        1  Sine                                              ",
   " cos        1  Cosine                                            ",
   " tan        1  Tangent                                           ",
   " asin       1  Inverse sine                                      ",
   " acos       1  Inverse cosine                                    ",
   " atan       1  Inverse tangens                                   ",
   " sinh       1  Hyperbolic sine                                   ",
   " cosh       1  Hyperbolic cosine                                 ",
   " tanh       1  Hyperbolic tangent                                ",
   " asinh      1  Inverse hyperbolic sine                           ",
   " acosh      1  Inverse hyperbolic cosine                         ",
   " atanh      1  Inverse hyperbolic tangent                        ",
   " max        *  Maximum                                           ",
   " min        *  Minimum                                           ",
   " abs        1  Absolute value                                    ",
   " ceil       1  Round up to nearest integer                       ",
   " floor      1  Round down to nearest integer                     ",
   " round      1  Round to nearest integer                          ",
   " trunc      1  Round towards zero to nearest integer             ",
   " frac       1  Fractional part of x                              ",
   " sgn        1  Sign of x (-1, 0, 1)                              ",
   " sum        *  Sum of all operands                               ",
   " prod       *  Product of all operands                           ",
   " avg        *  Arithmetic mean of all operands                   ",
   " gcd        2  Greatest common divisor                           ",
   " lcm        2  Least common multiple                             ",
   " rand       2  Random integer between min and max (exclusive)    ",
   " fib        1  Fibonacci sequence                                ",
   " gamma      1  Gamma function                                    ",
   " var        *  Variance of a population                          "]]

/-- Rows with a heading that is aligned to the left. -/
def headed (rows : List (List String)) : List (Option HAlign × List (Option HAlign × Option Str)) :=
  rows.zipIdx.map fun r => (if r.2 = 0 then some .left else none, r.1.map fun x => (none, some x.toList))

/-- The calls for a table without values. -/
def callsOf (c : Columns) : Option (List Call) :=
  match opRows (V := Unit) (fun _ => []) (fun _ => .ok ()) c builtinOps descriptions with
  | .ok cs => some (heading c ++ cs)
  | _ => none

theorem printed_marked (hs : List HAlign) (rows : List (Option HAlign × List (Option HAlign × Option Str))) (h0 : hs.length ≤ maxCols)
    (hrows : ∀ r ∈ rows, r.2.length ≤ maxCols ∧ ∀ c ∈ r.2, LayoutSpec.Tidy c.2)
    (hh : ∀ r ∈ rows, rowHeight (r.2.map (·.2)) ≤ 2 ^ 31) :
    Help.printed (.setAligns hs [] :: markedCalls rows) = .ok (output (shownBy (alignIn hs rows) (rows.map fun r => r.2.map (·.2)))) := by
  obtain ⟨t, t', h1, h2⟩ := C69_marked hs rows h0 hrows hh
  unfold Help.printed
  rw [h1, Out.of_ok, Out.bind_ok, h2]
  rfl

theorem tables_key : ∀ x ∈ operatorTables.zip operatorLines, x.1.1.value = false ∧
    callsOf x.1.1 = some (.setAligns [.left, .right] [] :: markedCalls (headed x.1.2)) := by
  decide +kernel

theorem tables_look : ∀ x ∈ operatorTables.zip operatorLines, shownBy (alignIn [.left, .right] (headed x.1.2))
    ((headed x.1.2).map fun r => r.2.map (·.2)) = x.2.map String.toList ∧
    ((headed x.1.2).map fun r => r.2.map (·.2)) = x.1.2.map fun r => r.map fun x => some x.toList := by
  decide +kernel

theorem tables_tidy : ∀ x ∈ operatorTables.zip operatorLines, ∀ r ∈ headed x.1.2, r.2.length ≤ maxCols ∧
    (∀ c ∈ r.2, ∃ x ∈ c.2, x.head? ≠ some '\n' ∧ ∀ c ∈ x, c ≠ Char.ofNat 27 ∧ c.toNat < 128) ∧
    rowHeight (r.2.map (·.2)) ≤ 2 ^ 31 := by
  decide +kernel

/-- **C87.** Whatever has been entered, the tables of infix, prefix and postfix operators and of functions in
`help operators` list these rows and look like this: names and descriptions begin in the same column, and numbers end in the
same column. -/
theorem C87_tables (K : Client V ε ρ) (s : Session V ρ) (hs : Reachable K s) (fmt : V → Str) (eval : Op → Except EvalErr V)
    (c : Columns) (rows : List (List String)) (lines : List String) (hc : ((c, rows), lines) ∈ operatorTables.zip operatorLines) :
    opTable fmt eval (s.ctx.ops.map (·.2)) c = .ok (output (lines.map String.toList)) ∧
    ∃ al, lines.map String.toList = shownBy al (rows.map fun r => r.map fun x => some x.toList) := by
  obtain ⟨us, e⟩ := ops_split K s hs
  have hl : builtinOps.length = 58 := by decide +kernel
  have hd : descriptions.length = builtinOps.length := by decide +kernel
  obtain ⟨hv, hk⟩ := tables_key _ hc
  obtain ⟨l1, l2⟩ := tables_look _ hc
  refine ⟨?_, _, by rw [← l1, l2]⟩
  unfold callsOf at hk
  split at hk
  · rename_i cs hcs
    rw [opTable, e, if_neg (by rw [List.length_append, hl]; omega), opRows_append _ _ _ _ _ _ hd, opRows_novalue _ _ _ hv, hcs, Out.of_ok,
      Out.bind_ok, Option.some.inj hk, printed_marked _ _ (by decide) (fun r hr => ⟨(tables_tidy _ hc r hr).1, fun c h => ?_⟩)
        (fun r hr => (tables_tidy _ hc r hr).2.2), l1]
    obtain ⟨x, hx, h1, h2⟩ := (tables_tidy _ hc r hr).2.1 c h
    rw [Option.mem_def.1 hx]
    exact tidy_of h1 h2
  · cases hk

/-- The columns of the table of constants. -/
def constantColumns : Columns := ⟨.function, false, false, false, true⟩

theorem opRows_constants (fmt : V → Str) (eval : Op → Except EvalErr V) (val : Op → Option Str) : ∀ (os : List Op) (ds : List Str),
    (∀ p ∈ (os.zip ds).filter (fun p => listed constantColumns p.1), valueCell fmt (eval p.1) = .ok (val p.1)) →
    opRows fmt eval constantColumns os ds = .ok (markedCalls
      (((os.zip ds).filter fun p => listed constantColumns p.1).map fun p =>
        (none, [(none, some (lit " " ++ p.1.name ++ lit " ")), (some .right, val p.1), (none, some p.2)]))) := by
  intro os
  induction os with
  | nil => intro ds _; simp [opRows, markedCalls]
  | cons o os ih =>
    intro ds h
    cases ds with
    | nil => simp [opRows, markedCalls]
    | cons d ds =>
      by_cases hl : listed constantColumns o
      · rw [List.zip_cons_cons, List.filter_cons, if_pos hl] at h ⊢
        have h1 := ih ds fun p hp => h p (by simp [hp])
        have hv := h (o, d) (by simp)
        simp only [opRows, if_pos hl, opRow, hv, h1]
        rfl
      · rw [List.zip_cons_cons, List.filter_cons, if_neg hl] at h ⊢
        have h1 := ih ds h
        simp only [opRows, if_neg hl, h1]
        rfl

/-- **C87.** The table of constants of `help operators`, with the values the constants have in expressions; the cell of
`ans` is empty as long as there is no result.  The heading is aligned to the left and the values to the right. -/
theorem C87_constants (K : Client V ε ρ) (s : Session V ρ) (hs : Reachable K s) (fmt : V → Str) (A : Arith V) (rnd fuel : Nat) :
    opTable fmt (fun o => evalOp A s.hist rnd fuel o []) (s.ctx.ops.map (·.2)) constantColumns =
      Help.printed (.setAligns [.left, .right] [] :: markedCalls
        [(some .left, [(none, some " Name ".toList), (none, some " Value ".toList), (none, some " Description ".toList)]),
         (none, [(none, some " pi ".toList), (some .right, some (' ' :: (fmt (A.literal 3.14159265359) ++ [' ']))), (none, some (bytes " Archimedes' constant "))]),
         (none, [(none, some " e ".toList), (some .right, some (' ' :: (fmt (A.literal 2.71828182846) ++ [' ']))), (none, some (bytes " Euler's number "))]),
         (none, [(none, some " phi ".toList), (some .right, some (' ' :: (fmt (A.literal 1.61803398874) ++ [' ']))), (none, some (bytes " Golden ratio "))]),
         (none, [(none, some " clight ".toList), (some .right, some (' ' :: (fmt (A.ofInt 299792458) ++ [' ']))), (none, some (bytes " Speed of light [m/s] "))]),
         (none, [(none, some " csound ".toList), (some .right, some (' ' :: (fmt (A.literal 343.2) ++ [' ']))), (none, some (bytes " Speed of sound in air at 20 °C [m/s] "))]),
         (none, [(none, some " ans ".toList), (some .right, s.hist.getLast?.map fun v => ' ' :: (fmt v ++ [' '])), (none, some (bytes " Last result "))])]) := by
  obtain ⟨us, e⟩ := ops_split K s hs
  have hl : builtinOps.length = 58 := by decide +kernel
  have hd : descriptions.length = builtinOps.length := by decide +kernel
  have hsp : lit " " = [' '] := by decide +kernel
  have hf : ((builtinOps.zip descriptions).filter fun p => listed constantColumns p.1) =
      [(⟨"pi".toList, 52, .fixed 0, 255, .left, .function⟩, bytes " Archimedes' constant "),
       (⟨"e".toList, 53, .fixed 0, 255, .left, .function⟩, bytes " Euler's number "),
       (⟨"phi".toList, 54, .fixed 0, 255, .left, .function⟩, bytes " Golden ratio "),
       (⟨"clight".toList, 55, .fixed 0, 255, .left, .function⟩, bytes " Speed of light [m/s] "),
       (⟨"csound".toList, 56, .fixed 0, 255, .left, .function⟩, bytes " Speed of sound in air at 20 °C [m/s] "),
       (⟨"ans".toList, 57, .fixed 0, 255, .left, .function⟩, bytes " Last result ")] := by decide +kernel
  have hlast : historyGet s.hist 0 = s.hist.getLast? := by
    unfold historyGet
    rw [List.getLast?_eq_getElem?]
    split
    · rename_i h
      rw [List.eq_nil_of_length_eq_zero (by omega : s.hist.length = 0)]; rfl
    · rfl
  have h1 := opRows_constants fmt (fun o => evalOp A s.hist rnd fuel o [])
    (fun o => match evalOp A s.hist rnd fuel o [] with | .ok v => some (lit " " ++ fmt v ++ lit " ") | _ => none)
    builtinOps descriptions (by
      rw [hf]
      intro p hp
      simp only [List.mem_cons, List.not_mem_nil, or_false] at hp
      rcases hp with rfl | rfl | rfl | rfl | rfl | rfl
      · rfl
      · rfl
      · rfl
      · rfl
      · rfl
      · simp only [evalOp]
        cases historyGet s.hist 0 <;> rfl)
  have t1 : lit " Name " = " Name ".toList := by decide +kernel
  have t2 : lit " Value " = " Value ".toList := by decide +kernel
  have t3 : lit " Description " = " Description ".toList := by decide +kernel
  have n1 : (314159265359 / 100000000000 : Rat) = 3.14159265359 := by decide +kernel
  have n2 : (271828182846 / 100000000000 : Rat) = 2.71828182846 := by decide +kernel
  have n3 : (161803398874 / 100000000000 : Rat) = 1.61803398874 := by decide +kernel
  have n4 : (3432 / 10 : Rat) = 343.2 := by decide +kernel
  have hh : ∀ cs, heading constantColumns ++ cs = .setAligns [.left, .right] [] :: (markedCalls
      [(some .left, [(none, some (lit " Name ")), (none, some (lit " Value ")), (none, some (lit " Description "))])] ++ cs) := fun cs => rfl
  rw [opTable, e, if_neg (by rw [List.length_append, hl]; omega), opRows_append _ _ _ _ _ _ hd, h1, hf, Out.of_ok, Out.bind_ok, hh, t1, t2, t3,
    markedCalls, markedCalls, ← List.flatMap_append, hsp]
  simp only [List.map_cons, List.map_nil, evalOp, n1, n2, n3, n4, hlast]
  cases s.hist.getLast? <;> simp [fromHistory, markedCalls]

/-- All tables together list each operator exactly once. -/
theorem C87_once : ∀ o ∈ builtinOps, (tables.filter fun t => listed t.2 o).length = 1 := by decide +kernel

/-- The degree sign takes two bytes, and so the lines of the table of constants are not equally wide. -/
theorem C87_degree : (bytes " Speed of sound in air at 20 °C [m/s] ").length = 39 ∧
    " Speed of sound in air at 20 °C [m/s] ".length = 38 := by decide +kernel

end Verif.HelpProps
