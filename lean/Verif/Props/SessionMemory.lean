import Verif.Lemmas.KernelRfl
import Verif.Lemmas.SessionMemory

/-!
# C102: the nodes a session holds are those of the rules of its functions
-/

namespace Verif.SessionMemoryProps
open Verif OwnershipSpec MemorySpec EvaluationMemoryProps OwnershipProps
variable {V ε : Type}

theorem started {s : Session V Unit} (h : initSession () = .ok s) (m : Mem V) :
    Sess s [] ∧ InMemory m.get s ⟨s.ctx, [], s.hist, m⟩ [] := by
  have hs := initSession_sess h
  have hf : s.funs = [] := by
    have := hs.rules
    cases hr : s.funs with
    | nil => rfl
    | cons r rs => rw [hr] at this; cases this
  exact ⟨hs, rfl, rfl, by rw [hf]; exact ⟨⟨rfl, rfl⟩, List.nodup_nil, by simp, fun _ _ => rfl⟩⟩

/-- Whatever is entered, the nodes in memory are those from before the session and those of the rules of the
functions that are defined; no node belongs to two rules.  Context and history are those of the session
whose trees are values. -/
theorem C102_session (M : Malloc V) {F : Finder V} (strtod : Str → Option V) {simp : Simp V}
    {xs : List (Machine V ε × MemInput)} (hF : ∀ x ∈ xs, Finds x.1.dbl.eq F) {s s' : Session V Unit}
    (hi : initSession () = .ok s) (h : sessionOn simp strtod s xs = .ok s') :
    ∃ n, ∀ deep ≥ n, ∀ (m : Mem V) (ms : MemSimp V), StoredSimp m.get simp ms →
      ∃ sm S, sessionAt M F deep strtod ms ⟨s.ctx, [], s.hist, m⟩ xs = .ok sm ∧ InMemory m.get s' sm S := by
  obtain ⟨-, n, hn⟩ := sessionAt_spec M strtod (initSession_sess hi) hF h
  exact ⟨n, fun deep hd m ms hst => hn deep hd m.get ms _ [] hst (started hi m).2⟩

/-- A definition: if it is refused, the memory is as before; otherwise there is one rule more, on
nodes that were not in use, and all other nodes are as before. -/
theorem C102_definition (M : Malloc V) {F : Finder V} (strtod : Str → Option V) {simp : Simp V}
    {xs : List (Machine V ε × MemInput)} (hF : ∀ x ∈ xs, Finds x.1.dbl.eq F) {s s' s'' : Session V Unit}
    (hi : initSession () = .ok s) (h : sessionOn simp strtod s xs = .ok s') (K : Machine V ε)
    (hK : Finds K.dbl.eq F) {input : Str} {b : Bool}
    (hd : definitionExec (valueClient K simp strtod) s' input = .ok (s'', b)) :
    ∃ n, ∀ deep ≥ n, ∀ (m : Mem V) (ms : MemSimp V), StoredSimp m.get simp ms →
      ∃ sm S f m', sessionAt M F deep strtod ms ⟨s.ctx, [], s.hist, m⟩ xs = .ok sm ∧ InMemory m.get s' sm S ∧
        K.definitionAt M F deep strtod sm.funs ms sm.ctx input sm.mem = .ok (s''.ctx, f, m') ∧
        (b = false → f = none ∧ m'.get = sm.mem.get) ∧
        (b = true → ∃ rule p q P R, s''.funs = s'.funs ++ [rule] ∧ f = some ⟨p, q⟩ ∧
          OwnershipSpec.Holds m'.get rule.pattern.tree p P ∧ OwnershipSpec.Holds m'.get rule.after q R ∧
          (P ++ R).Nodup ∧ (∀ a ∈ P ++ R, sm.mem.get a = none) ∧
          ∀ a, a ∉ P ++ R → m'.get a = sm.mem.get a) := by
  obtain ⟨⟨D, hs⟩, n1, h1⟩ := sessionAt_spec M strtod (initSession_sess hi) hF h
  obtain ⟨-, n2, h2⟩ := definitionAt_spec K M hK strtod hs hd
  refine ⟨n1 + n2, fun deep hdeep m ms hst => ?_⟩
  obtain ⟨sm, S, e1, e2⟩ := h1 deep (by omega) m.get ms _ [] hst (started hi m).2
  obtain ⟨f, m', e3, e4⟩ := h2 deep (by omega) sm.funs S ms sm.mem e2.keeps.owned (keeps_storedSimp e2.keeps hst)
  refine ⟨sm, S, f, m', e1, e2, by rw [e2.ctx]; exact e3, fun hb => ?_, fun hb => ?_⟩
  · rcases e4 with ⟨-, k1, k2, -⟩ | ⟨k1, -⟩
    · exact ⟨k1, k2⟩
    · rw [hb] at k1; cases k1
  · rcases e4 with ⟨k1, -⟩ | ⟨-, rule, p, q, P, R, k1, k2, k3, -⟩
    · rw [hb] at k1; cases k1
    · exact ⟨rule, p, q, P, R, k1, k2, k3.left, k3.right, k3.nodup, k3.new, k3.old⟩

/-- After `clear` the memory is as it was before the session. -/
theorem C102_clear (M : Malloc V) {F : Finder V} (strtod : Str → Option V) {simp : Simp V}
    {xs : List (Machine V ε × MemInput)} (hF : ∀ x ∈ xs, Finds x.1.dbl.eq F) {s s' : Session V Unit}
    (hi : initSession () = .ok s) (h : sessionOn simp strtod s xs = .ok s') :
    ∃ n, ∀ deep ≥ n, ∀ (m : Mem V) (ms : MemSimp V), StoredSimp m.get simp ms →
      ∃ sm c m', sessionAt M F deep strtod ms ⟨s.ctx, [], s.hist, m⟩ xs = .ok sm ∧
        clearAt deep sm.ctx sm.funs "clear".toList sm.mem = .ok (c, [], m') ∧ m'.get = m.get := by
  obtain ⟨⟨D, hs⟩, n1, h1⟩ := sessionAt_spec M strtod (initSession_sess hi) hF h
  obtain ⟨c, k1, -⟩ := clearFunctions_spec s'.funs s'.ctx D hs.ctx hs.rules
  refine ⟨n1 + depth s'.funs, fun deep hdeep m ms hst => ?_⟩
  obtain ⟨sm, S, e1, e2⟩ := h1 deep (by omega) m.get ms _ [] hst (started hi m).2
  obtain ⟨m', f1, f2⟩ := clearFunsAt_spec e2.keeps k1 (show _ ≤ deep by omega)
  refine ⟨sm, c, m', e1, ?_, f2⟩
  have hc : ("clear".toList : Str) = clearCommand := rfl
  simp only [clearAt, hc, if_true, e2.ctx, f1, Out.bind_ok, Out.pure_eq]

/-! ## Examples -/

/-- One command after the other on an empty memory: the number of nodes, of functions, and the history. -/
def ran (is : List MemInput) : Option (Nat × Nat × List Nat) :=
  match (initSession () : Res (Session Nat Unit)) with
  | .ok s =>
    match sessionAt bump reading 9 Verif.ParserProps.digit noMemSimp ⟨s.ctx, [], s.hist, ⟨[], fun _ => none⟩⟩
        (is.map fun i => (nine, i)) with
    | .ok r => some (r.mem.cells.length, r.funs.length, r.hist)
    | _ => none
  | _ => none

/-- The same on values. -/
def ranOn (is : List MemInput) : Option (Nat × List Nat) :=
  match (initSession () : Res (Session Nat Unit)) with
  | .ok s =>
    match sessionOn noSimp Verif.ParserProps.digit s (is.map fun i => (nine, i)) with
    | .ok r => some (r.funs.length, r.hist)
    | _ => none
  | _ => none

set_option Elab.async false in
/-- Two functions, an evaluation, a definition that is refused, one function cleared. -/
example : ran [.definition "f(x)=sum(x,x,1)".toList, .evaluation "f(2)".toList, .definition "g(x,y)=f(x)".toList,
    .definition "h(x)=y".toList, .clear "clear f".toList] = some (7, 1, [5]) := by
  decide +kernel

example : ranOn [.definition "f(x)=sum(x,x,1)".toList, .evaluation "f(2)".toList, .definition "g(x,y)=f(x)".toList,
    .definition "h(x)=y".toList, .clear "clear f".toList] = some (1, [5]) := by
  decide +kernel

/-- After `clear` nothing is left. -/
example : ran [.definition "f(x)=sum(x,x,1)".toList, .evaluation "f(2)".toList, .definition "g(x,y)=f(x)".toList,
    .clear "clear".toList] = some (0, 0, [5]) := by
  decide +kernel

end Verif.SessionMemoryProps
