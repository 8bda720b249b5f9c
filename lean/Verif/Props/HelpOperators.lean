import Verif.Props.Help
import Verif.Props.SimplifyRuns

/-!
# The text of `help operators` (C87)
-/

namespace Verif.HelpProps
open Help Layout LayoutSpec Drawing DrawingSpec DrawingProps LayoutProps SessionProps
variable {V ε ρ : Type}

/-- The text before the table of constants: each table below its title. -/
def beforeConstants : Str :=
  (["Infix operators:\n", "\nPrefix operators:\n", "\nPostfix operators:\n", "\nFunctions:\n"].zip operatorLines).flatMap fun x =>
    x.1.toList ++ output (x.2.map String.toList)

/-- The rows of the table of constants; `last` is the text of the value of `ans`. -/
def constantRows (fmt : V → Str) (A : Arith V) (last : Option V) : List (List (Option Str)) :=
  [[some " Name ".toList, some " Value ".toList, some " Description ".toList],
   [some " pi ".toList, some (' ' :: (fmt (A.literal 3.14159265359) ++ [' '])), some (bytes " Archimedes' constant ")],
   [some " e ".toList, some (' ' :: (fmt (A.literal 2.71828182846) ++ [' '])), some (bytes " Euler's number ")],
   [some " phi ".toList, some (' ' :: (fmt (A.literal 1.61803398874) ++ [' '])), some (bytes " Golden ratio ")],
   [some " clight ".toList, some (' ' :: (fmt (A.ofInt 299792458) ++ [' '])), some (bytes " Speed of light [m/s] ")],
   [some " csound ".toList, some (' ' :: (fmt (A.literal 343.2) ++ [' '])), some (bytes " Speed of sound in air at 20 °C [m/s] ")],
   [some " ans ".toList, last.map fun v => ' ' :: (fmt v ++ [' ']), some (bytes " Last result ")]]

/-- The values are aligned to the right, all else to the left. -/
def constantAlign (r k : Nat) : HAlign := if r ≠ 0 ∧ k = 1 then .right else .left

theorem shownWith_congr {μ : Str → Nat} {al al' : Nat → Nat → HAlign} {rows : List (List (Option Str))}
    (h : ∀ r k, r < rows.length → k < largest (rows.map List.length) → al r k = al' r k) : shownWith μ al rows = shownWith μ al' rows := by
  rw [shownWith, shownWith]
  refine List.flatMap_congr ?_
  rintro ⟨row, r⟩ hr
  obtain ⟨-, hr, -⟩ := List.mem_zipIdx hr
  refine List.map_congr_left fun i _ => List.flatMap_congr fun k hk => ?_
  rw [h r k (by simpa using hr) (List.mem_range.1 hk)]

/-- **C87.** What the table of constants looks like, if the numbers are printed without line breaks and escape sequences.  The
bytes are counted. -/
theorem C87_constants_text (K : Client V ε ρ) (s : Session V ρ) (hs : Reachable K s) (fmt : V → Str) (A : Arith V) (rnd fuel : Nat)
    (hfmt : ∀ v, '\n' ∉ fmt v ∧ Char.ofNat 27 ∉ fmt v) :
    opTable fmt (fun o => evalOp A s.hist rnd fuel o []) (s.ctx.ops.map (·.2)) constantColumns =
      .ok (output (shownWith List.length constantAlign (constantRows fmt A s.hist.getLast?))) := by
  rw [C87_constants K s hs fmt A rnd fuel]
  generalize hrows : ([_, _, _, _, _, _, _] : List (Option HAlign × List (Option HAlign × Option Str))) = rows
  have val : ∀ v, (' ' :: (fmt v ++ [' '])).head? ≠ some '\n' ∧ Char.ofNat 27 ∉ (' ' :: (fmt v ++ [' '])) ∧
      '\n' ∉ (' ' :: (fmt v ++ [' '])) := by
    intro v
    obtain ⟨h1, h2⟩ := hfmt v
    have e1 : (Char.ofNat 27) ≠ ' ' := by decide
    have e2 : '\n' ≠ ' ' := by decide
    refine ⟨by simp, ?_, ?_⟩
    · simp only [List.mem_cons, List.mem_append, List.not_mem_nil, or_false, not_or]
      exact ⟨e1, h2, e1⟩
    · simp only [List.mem_cons, List.mem_append, List.not_mem_nil, or_false, not_or]
      exact ⟨e2, h1, e2⟩
  have texts : ∀ r ∈ rows, r.2.length = 3 ∧ ∀ c ∈ r.2, ∀ x ∈ c.2, x.head? ≠ some '\n' ∧ Char.ofNat 27 ∉ x ∧ '\n' ∉ x := by
    have lits : ∀ x ∈ [" Name ".toList, " Value ".toList, " Description ".toList, " pi ".toList, " e ".toList, " phi ".toList,
        " clight ".toList, " csound ".toList, " ans ".toList, bytes " Archimedes' constant ", bytes " Euler's number ",
        bytes " Golden ratio ", bytes " Speed of light [m/s] ", bytes " Speed of sound in air at 20 °C [m/s] ",
        bytes " Last result "], x.head? ≠ some '\n' ∧ Char.ofNat 27 ∉ x ∧ '\n' ∉ x := by decide +kernel
    intro r hr
    subst hrows
    simp only [List.mem_cons, List.not_mem_nil, or_false] at hr
    rcases hr with rfl | rfl | rfl | rfl | rfl | rfl | rfl
    all_goals
      refine ⟨rfl, fun c hc x hx => ?_⟩
      simp only [List.mem_cons, List.not_mem_nil, or_false] at hc
      rcases hc with rfl | rfl | rfl
      all_goals first
        | (cases hx; exact val _)
        | (cases hx; exact lits _ (by simp))
        | (simp only [Option.mem_def, Option.map_eq_some_iff] at hx
           obtain ⟨v, -, rfl⟩ := hx
           exact val v)
  obtain ⟨t, t', h1, h2⟩ := C69_bytes [.left, .right] rows (by decide)
    (fun r hr => ⟨by rw [(texts r hr).1]; decide, fun c hc x hx => ⟨((texts r hr).2 c hc x hx).1, ((texts r hr).2 c hc x hx).2.1⟩⟩)
    (fun r hr => by
      refine Nat.le_trans (largest_le (m := 1) fun n hn => ?_) (by decide)
      obtain ⟨x, hx, rfl⟩ := List.mem_map.1 hn
      obtain ⟨c, hc, rfl⟩ := List.mem_map.1 hx
      cases hcx : c.2 with
      | none => exact Nat.zero_le _
      | some y =>
        rw [cellLines, linesOf_line ((texts r hr).2 c hc y hcx).2.2]
        exact Nat.le_refl _)
  unfold Help.printed
  rw [h1, Out.of_ok, Out.bind_ok, h2, Out.bind_ok]
  have er : (rows.map fun r => r.2.map (·.2)) = constantRows fmt A s.hist.getLast? := by rw [← hrows]; rfl
  rw [er]
  show Out.ok (output _) = _
  congr 2
  refine shownWith_congr fun r k hr hk => ?_
  have hr : r < 7 := hr
  have hk : k < 3 := by
    have : largest ((constantRows fmt A s.hist.getLast?).map List.length) = 3 := rfl
    omega
  rw [← hrows]
  have hr : r = 0 ∨ r = 1 ∨ r = 2 ∨ r = 3 ∨ r = 4 ∨ r = 5 ∨ r = 6 := by omega
  have hk : k = 0 ∨ k = 1 ∨ k = 2 := by omega
  rcases hr with rfl | rfl | rfl | rfl | rfl | rfl | rfl <;> rcases hk with rfl | rfl | rfl <;> rfl

/-- **C87.** The whole text of `help operators` in every session. -/
theorem C87_operators (K : Client V ε ρ) (s : Session V ρ) (hs : Reachable K s) (fmt : V → Str) (A : Arith V) (notice : Str)
    (rnd fuel : Nat) (hfmt : ∀ v, '\n' ∉ fmt v ∧ Char.ofNat 27 ∉ fmt v) :
    Help.exec A fmt notice rnd fuel s .operators = .ok (beforeConstants ++ "\nConstants:\n".toList ++
      output (shownWith List.length constantAlign (constantRows fmt A s.hist.getLast?))) := by
  have h := C87_constants_text K s hs fmt A rnd fuel hfmt
  have key : ∀ i (h1 : i < operatorTables.length) (h2 : i < operatorLines.length),
      opTable fmt (fun o => evalOp A s.hist rnd fuel o []) (s.ctx.ops.map (·.2)) operatorTables[i].1 =
        .ok (output (operatorLines[i].map String.toList)) := fun i h1 h2 =>
    (C87_tables K s hs fmt _ operatorTables[i].1 operatorTables[i].2 operatorLines[i]
      (List.mem_iff_getElem.2 ⟨i, by rw [List.length_zip]; omega, by rw [List.getElem_zip]; rfl⟩)).1
  have k0 : opTable fmt (fun o => evalOp A s.hist rnd fuel o []) (s.ctx.ops.map (·.2)) ⟨.infix, true, true, false, false⟩ =
      .ok (output (operatorLines[0].map String.toList)) := key 0 (by decide) (by decide)
  have k1 : opTable fmt (fun o => evalOp A s.hist rnd fuel o []) (s.ctx.ops.map (·.2)) ⟨.prefix, false, true, false, false⟩ =
      .ok (output (operatorLines[1].map String.toList)) := key 1 (by decide) (by decide)
  have k2 : opTable fmt (fun o => evalOp A s.hist rnd fuel o []) (s.ctx.ops.map (·.2)) ⟨.postfix, false, true, false, false⟩ =
      .ok (output (operatorLines[2].map String.toList)) := key 2 (by decide) (by decide)
  have k3 : opTable fmt (fun o => evalOp A s.hist rnd fuel o []) (s.ctx.ops.map (·.2)) ⟨.function, false, false, true, false⟩ =
      .ok (output (operatorLines[3].map String.toList)) := key 3 (by decide) (by decide)
  have t0 : lit "Infix operators:\n" = "Infix operators:\n".toList := by decide +kernel
  have t1 : lit "\nPrefix operators:\n" = "\nPrefix operators:\n".toList := by decide +kernel
  have t2 : lit "\nPostfix operators:\n" = "\nPostfix operators:\n".toList := by decide +kernel
  have t3 : lit "\nFunctions:\n" = "\nFunctions:\n".toList := by decide +kernel
  have t4 : lit "\nConstants:\n" = "\nConstants:\n".toList := by decide +kernel
  have e : beforeConstants = "Infix operators:\n".toList ++ output (operatorLines[0].map String.toList) ++
      ("\nPrefix operators:\n".toList ++ output (operatorLines[1].map String.toList) ++
      ("\nPostfix operators:\n".toList ++ output (operatorLines[2].map String.toList) ++
      ("\nFunctions:\n".toList ++ output (operatorLines[3].map String.toList) ++ []))) := rfl
  rw [Help.exec, tables, opTables, opTables, opTables, opTables, opTables, opTables]
  rw [k0, k1, k2, k3, show (⟨.function, false, false, false, true⟩ : Columns) = constantColumns from rfl, h]
  simp only [Out.bind_ok, Out.pure_eq, t0, t1, t2, t3, t4]
  rw [e]
  simp only [List.append_assoc, List.append_nil]

/-- Whole numbers, for an example. -/
def wholePart (q : ℚ) : Str := Nat.toDigits 10 q.floor.toNat

/-- The table of constants before the first result. -/
def firstConstants : List String :=
  [" Name    Value      Description                           ",
   " pi              3  Archimedes' constant                  ",
   " e               2  Euler's number                        ",
   " phi             1  Golden ratio                          ",
   " clight  299792458  Speed of light [m/s]                  ",
   " csound        343  Speed of sound in air at 20 °C [m/s] ",
   " ans                Last result                           "]

example : ∀ v, '\n' ∉ wholePart v ∧ Char.ofNat 27 ∉ wholePart v := by
  intro v
  have key : ∀ n, ∀ c ∈ Nat.toDigits 10 n, c.isDigit = true := fun n c hc => Nat.isDigit_of_mem_toDigits (by decide) (by decide) hc
  exact ⟨fun h => absurd (key _ _ h) (by decide), fun h => absurd (key _ _ h) (by decide)⟩

example : shownWith List.length constantAlign (constantRows wholePart SimplifyProps.qA none) = firstConstants.map DrawingSpec.bytes := by
  decide +kernel

/-- **C87.** The line of `csound` is one column too short on the screen. -/
theorem C87_short_line : firstConstants.map String.length = [58, 58, 58, 58, 58, 57, 58] ∧
    (firstConstants.map DrawingSpec.bytes).map columns = [58, 58, 58, 58, 58, 57, 58] := by decide +kernel

end Verif.HelpProps
