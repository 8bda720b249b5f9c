import Verif.Props.Help
import Verif.Props.SessionRuns
import Verif.Lemmas.KernelRfl

/-!
# The help in concrete sessions
-/

namespace Verif.HelpProps
open Help Layout LayoutSpec Drawing DrawingSpec DrawingProps LayoutProps SessionProps
variable {V ε ρ : Type}

/-! ## A session with functions -/

mutual
/-- Whether the texts of a tree are printable. -/
def plainTexts (fmt : V → Str) : Tree V → Bool
  | .const v _ => decide (fmt v ≠ [] ∧ ∀ c ∈ fmt v, 32 ≤ c.toNat ∧ c.toNat < 127)
  | .var n _ _ => decide (n ≠ [] ∧ ∀ c ∈ n, 32 ≤ c.toNat ∧ c.toNat < 127)
  | .op o cs _ => decide (o.name ≠ [] ∧ ∀ c ∈ o.name, 32 ≤ c.toNat ∧ c.toNat < 127) && plainTextsList fmt cs
/-- The same for several trees. -/
def plainTextsList (fmt : V → Str) : List (Tree V) → Bool
  | [] => true
  | c :: cs => plainTexts fmt c && plainTextsList fmt cs
end

theorem plainTexts_sound (fmt : V → Str) (t : Tree V) : plainTexts fmt t = true → Texts fmt Plain t := by
  induction t using Tree.induct with
  | hc v tok => intro h; rw [plainTexts] at h; have := of_decide_eq_true h; exact .const this
  | hv n x tok => intro h; rw [plainTexts] at h; have := of_decide_eq_true h; exact .var this
  | ho o cs tok ih =>
    intro h
    rw [plainTexts, Bool.and_eq_true] at h
    have h1 := of_decide_eq_true h.1
    refine .op h1 fun c hc => ih c hc ?_
    have h2 := h.2
    clear h ih
    induction cs with
    | nil => cases hc
    | cons d ds ih =>
      rw [plainTextsList, Bool.and_eq_true] at h2
      rcases List.mem_cons.mp hc with rfl | hc
      · exact h2.1
      · exact ih hc h2.2

/-- What `C87_functions` asks for, checked. -/
def fitsHelp (s : Session Nat Unit) : Bool :=
  !s.funs.isEmpty && s.funs.all fun r => plainTexts fmt1 r.pattern.tree && plainTexts fmt1 r.after &&
    match treeToStr fmt1 r.after with | .ok _ => true | _ => false

/-- The hypotheses of `C87_functions` and the other theorems hold after these definitions. -/
example : ∃ s, Reachable K0 s ∧ s.funs ≠ [] ∧ ∀ r ∈ s.funs,
    Texts fmt1 Plain r.pattern.tree ∧ Texts fmt1 Plain r.after ∧ ∃ p, treeToStr fmt1 r.after = .ok p := by
  have key : (match runState K0 ["f(x)=x+1", "g(x,y)=f(y)*f(x)", "c=3"] with
    | .ok (s, _) => fitsHelp s
    | _ => false) = true := by kernel_rfl
  split at key
  · rename_i s r h
    refine ⟨s, run_reach h, ?_⟩
    unfold fitsHelp at key
    simp only [Bool.and_eq_true, Bool.not_eq_true', List.isEmpty_eq_false_iff, List.all_eq_true] at key
    refine ⟨key.1, fun r hr => ⟨plainTexts_sound _ _ (key.2 r hr).1.1, plainTexts_sound _ _ (key.2 r hr).1.2, ?_⟩⟩
    have := (key.2 r hr).2
    split at this
    · rename_i p hp; exact ⟨p, hp⟩
    · cases this
  · cases key

/-- The session after `f(x)=x+1`. -/
def oneFunction : Out (Session Nat Unit) := do
  let s ← Out.of (initSession ())
  let (s, _) ← definitionExec K0 s "f(x)=x+1".toList
  pure s

/-- The hypotheses of `C87_help` hold in this session. -/
example : ∃ s, oneFunction = .ok s ∧ Reach K0 TidyDef (fun _ => True) s ∧ s.funs.length = 1 ∧ SimpKeeps K0 ∧
    K0.fuel < sizeMax := by
  have key : (match oneFunction with
    | .ok s => decide (s.funs.length = 1)
    | _ => false) = true := by kernel_rfl
  split at key
  · rename_i s h
    refine ⟨s, h, ?_, of_decide_eq_true key, K0_keeps, by decide⟩
    unfold oneFunction at h
    obtain ⟨s0, h0, h⟩ := Out.bind_eq_ok.1 h
    obtain ⟨⟨s1, b⟩, h1, h⟩ := Out.bind_eq_ok.1 h
    cases h
    have h0 := Out.of_eq_ok.1 h0
    refine .define (.start h0) ⟨by decide, ?_⟩ (by decide) h1
    have : (match initSession (V := Nat) () with
      | .ok s => s.ctx.ops.all fun p => decide (p.2.id < s.ctx.ops.length)
      | _ => false) = true := by kernel_rfl
    rw [h0] at this
    simpa using this
  · cases key

/-- The texts of the cells, row by row. -/
def textsOf : List Call → (row : List (Option Str)) → List (List (Option Str))
  | [], _ => []
  | .add x :: cs, row => textsOf cs (row ++ [x])
  | .nextRow :: cs, row => row :: textsOf cs []
  | _ :: cs, row => textsOf cs row

/-- What is visible of the rows of the functions. -/
def visible (is : List String) : List (List (Option Str)) :=
  match runState K0 is with
  | .ok (s, _) => match functionCalls fmt1 s.funs with
    | .ok cs => (textsOf cs []).map fun r => r.map (Option.map seen)
    | _ => []
  | _ => []

example : visible ["f(x)=x+1", "g(x,y)=f(y)*f(x)", "c=3"] =
    [[some "f(x)".toList, some " = ".toList, some "x+1".toList],
     [some "g(x,y)".toList, some " = ".toList, some "(y+1)*(x+1)".toList],
     [some "c".toList, some " = ".toList, some "3".toList]] := by
  kernel_rfl

end Verif.HelpProps
