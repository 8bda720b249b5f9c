import Verif.Lemmas.Vector

/-!
# Properties of vectors and string builders (C04, C05)
-/

namespace Verif.VectorProps
open SequenceSpec
variable {α : Type}

theorem exec_step {v : Vec α} {l : List α} {c : Vec.Cmd α} {l' : List α} {o : Option α} (h : v.Rep l)
    (hz : v.size = v.buffer.length) (hc : Step l c l' o) :
    ∃ w, v.exec c = .ok (w, o) ∧ w.Rep l' ∧ w.size = w.buffer.length := by
  cases hc with
  | push _ x =>
    obtain ⟨w, h1, h2, h3⟩ := h.pushMany [x]
    exact ⟨w, by simp only [Vec.exec, Vec.push, h1, Res.bind_ok, Res.pure_eq], h2, h3⟩
  | pushElem _ x =>
    obtain ⟨w, h1, h2, h3⟩ := h.pushMany [x]
    exact ⟨w, by simp only [Vec.exec, Vec.pushElem_eq, h1, Res.bind_ok, Res.pure_eq], h2, h3⟩
  | pushMany _ xs =>
    obtain ⟨w, h1, h2, h3⟩ := h.pushMany xs
    exact ⟨w, by simp only [Vec.exec, h1, Res.bind_ok, Res.pure_eq], h2, h3⟩
  | popEmpty =>
    exact ⟨v, by simp [Vec.exec, Vec.pop, h.count], h, hz⟩
  | pop _ x =>
    exact ⟨_, h.pop.1, h.pop.2, hz⟩
  | set a x b y =>
    obtain ⟨w, h1, h2, h3, h4⟩ := h.set y
    exact ⟨w, by simp only [Vec.exec, h1, Res.bind_ok, Res.pure_eq], h2, by rw [h3, h4, hz]⟩
  | ensure _ n => exact ⟨_, rfl, (h.ensure n).1, (h.ensure n).2.2⟩
  | trim => exact ⟨_, rfl, h.trim.1, h.trim.2⟩
  | clear => exact ⟨_, rfl, h.clear, hz⟩

theorem run_steps {v : Vec α} {l : List α} {cs : List (Vec.Cmd α)} {l' : List α} {os : List (Option α)}
    (h : v.Rep l) (hz : v.size = v.buffer.length) (hr : Run l cs l' os) :
    ∃ w, v.run cs = .ok (w, os) ∧ w.Rep l' ∧ w.size = w.buffer.length := by
  induction hr generalizing v with
  | nil l => exact ⟨v, rfl, h, hz⟩
  | cons hs _ ih =>
    obtain ⟨w, h1, h2, h3⟩ := exec_step h hz hs
    obtain ⟨u, h4, h5, h6⟩ := ih h2 h3
    exact ⟨u, by simp only [Vec.run, h1, h4, Res.bind_ok, Res.pure_eq], h5, h6⟩

/-- **C04.**  Every history of operations on a vector does what it does to a sequence: it
never leaves the buffer (no access is `ub`), returns the same elements, and
afterwards the elements are those of the sequence; the count never exceeds the allocated
capacity. -/
theorem C04_vector (start : Nat) (cs : List (Vec.Cmd α)) (l : List α) (os : List (Option α))
    (h : Run [] cs l os) :
    ∃ v, (Vec.create start).run cs = .ok (v, os) ∧ v.count = l.length ∧ v.count ≤ v.size ∧
      v.size = v.buffer.length ∧ (∀ i (hi : i < l.length), v.get i = .ok l[i]) ∧ v.peek = .ok l.getLast? := by
  obtain ⟨v, h1, h2, h3⟩ := run_steps (Vec.Rep.create start) (by simp [Vec.create]) h
  refine ⟨v, h1, h2.count, h2.room, h3, fun i hi => h2.get i hi, ?_⟩
  rcases List.eq_nil_or_concat l with rfl | ⟨a, x, rfl⟩
  · simp [Vec.peek, h2.count]
  · have hc := h2.count
    simp only [List.concat_eq_append, List.length_append, List.length_singleton] at hc h2 ⊢
    simp only [Vec.peek, if_neg (show ¬ v.count = 0 by omega), h2.get (v.count - 1) (by simp [hc]), Res.bind_ok,
      Res.pure_eq]
    simp [hc]

/-- The hypothesis is met by a history that grows a vector of capacity 0, overwrites and
pops. -/
example : ∃ v : Vec Nat, (Vec.create 0).run [.push 1, .pushMany [2, 3], .set 1 7, .trim, .pop, .pop, .clear, .pop]
    = .ok (v, [none, none, none, none, some 3, some 7, none, none]) ∧ v.count = 0 := by
  obtain ⟨v, h, hc, _⟩ := C04_vector 0 [.push 1, .pushMany [2, 3], .set 1 7, .trim, .pop, .pop, .clear, .pop] ([] : List Nat)
    [none, none, none, none, some 3, some 7, none, none]
    (.cons (.push _ _) (.cons (.pushMany _ _) (.cons (.set [1] 2 [3] 7) (.cons (.trim _)
      (.cons (.pop [1, 7] 3) (.cons (.pop [1] 7) (.cons (.clear _) (.cons .popEmpty (.nil _)))))))))
  exact ⟨v, h, hc⟩

/-- Every operation is defined on every sequence, except overwriting an element that does not
exist. -/
theorem C04_defined (l : List α) (c : Vec.Cmd α) (h : ∀ i x, c = .set i x → i < l.length) :
    ∃ l' o, Step l c l' o := by
  cases c with
  | push x => exact ⟨_, _, .push l x⟩
  | pushElem x => exact ⟨_, _, .pushElem l x⟩
  | pushMany x => exact ⟨_, _, .pushMany l x⟩
  | pop =>
    rcases List.eq_nil_or_concat l with rfl | ⟨a, x, rfl⟩
    · exact ⟨_, _, .popEmpty⟩
    · rw [List.concat_eq_append]; exact ⟨_, _, .pop a x⟩
  | set i x =>
    have hi := h i x rfl
    have e : l = l.take i ++ l[i] :: l.drop (i + 1) := by simp
    have := Step.set (l.take i) l[i] (l.drop (i + 1)) x
    rw [← e, List.length_take, min_eq_left (Nat.le_of_lt hi)] at this
    exact ⟨_, _, this⟩
  | ensure n => exact ⟨_, _, .ensure l n⟩
  | trim => exact ⟨_, _, .trim l⟩
  | clear => exact ⟨_, _, .clear l⟩

/-- The loop of `get_next` of an iterator that starts at `i`. -/
def iterate (v : Vec α) : (fuel i : Nat) → Res (List α)
  | 0, _ => .ok []
  | fuel + 1, i => do
    match ← v.next i with
    | (_, none) => pure []
    | (j, some x) => do
      let xs ← iterate v fuel j
      pure (x :: xs)

/-- **C04**, iterators: a pass over a vector meets its elements in order, and nothing
more however long it is asked. -/
theorem C04_iterator (v : Vec α) (l : List α) (h : v.Rep l) (fuel : Nat) (hf : l.length ≤ fuel) :
    iterate v fuel 0 = .ok l ∧ ∀ i, l.length ≤ i → v.next i = .ok (i + 1, none) := by
  have key : ∀ (b a : List α) (fuel : Nat), l = a ++ b → b.length ≤ fuel → iterate v fuel a.length = .ok b := by
    intro b
    induction b with
    | nil =>
      intro a fuel e _
      cases fuel with
      | zero => rfl
      | succ fuel => simp [iterate, Vec.next, h.count, e]
    | cons x b ih =>
      intro a fuel e hf
      cases fuel with
      | zero => simp at hf
      | succ fuel =>
        have hi : a.length < l.length := by simp [e]
        have hx : l[a.length] = x := by simp [e]
        have := ih (a ++ [x]) fuel (by simp [e]) (by simpa using hf)
        simp only [List.length_append, List.length_singleton] at this
        simp only [iterate, Vec.next, h.count, if_pos hi, h.get _ hi, Res.bind_ok, Res.pure_eq, hx, this]
  refine ⟨key l [] fuel (by simp) hf, fun i hi => ?_⟩
  simp [Vec.next, h.count, hi]

example : iterate (⟨2, 3, [some 5, some 6, none]⟩ : Vec Nat) 9 0 = .ok [5, 6] := by decide +kernel

/-- Growing is economical: less than half of the capacity that was needed is wasted. -/
theorem C04_growth (needed size : Nat) :
    needed ≤ Vec.growTo needed size ∧ size ≤ Vec.growTo needed size ∧
      Vec.growTo needed size ≤ max size (needed + needed / 2) :=
  ⟨(Vec.le_growTo needed size).1, (Vec.le_growTo needed size).2, Vec.growTo_le needed size⟩

example : Vec.growTo 11 10 = 15 ∧ Vec.growTo 1 0 = 1 ∧ Vec.growTo 3 4 = 4 := by decide +kernel

theorem run_builder {v : Vec Char} {s : Str} (h : v.Rep (s ++ [nul])) (hn : nul ∉ s) (cs : List Builder.Cmd)
    (hcs : ∀ c ∈ cs, NoNul c) :
    ∃ w, Builder.run v cs = .ok w ∧ w.Rep (text s cs ++ [nul]) ∧ nul ∉ text s cs ∧
      (v.size = v.buffer.length → w.size = w.buffer.length) := by
  induction cs generalizing v s with
  | nil => exact ⟨v, rfl, h, hn, id⟩
  | cons c cs ih =>
    have hc := hcs c (by simp)
    have hcs' : ∀ c ∈ cs, NoNul c := fun d hd => hcs d (by simp [hd])
    cases c with
    | append t =>
      obtain ⟨w, h1, h2, h3⟩ := Builder.append_rep (t := t) h
      obtain ⟨u, h4, h5, h6, h7⟩ := ih h2 (by simp only [NoNul] at hc; simp [hn, hc]) hcs'
      exact ⟨u, by simp only [Builder.run, Builder.exec, h1, Res.bind_ok, h4], h5, h6, fun e => h7 (h3 e)⟩
    | char c =>
      obtain ⟨w, h1, h2, h3⟩ := Builder.appendChar_rep c h
      obtain ⟨u, h4, h5, h6, h7⟩ := ih h2 (by simp only [NoNul] at hc; simp [hn, Ne.symm hc]) hcs'
      exact ⟨u, by simp only [Builder.run, Builder.exec, h1, Res.bind_ok, h4], h5, h6, fun _ => h7 h3⟩
    | clear =>
      obtain ⟨w, h1, h2, h3⟩ := Builder.clear_rep h
      obtain ⟨u, h4, h5, h6, h7⟩ := ih (s := []) h2 (by simp) hcs'
      exact ⟨u, by simp only [Builder.run, Builder.exec, h1, Res.bind_ok, h4], h5, h6, fun _ => h7 h3⟩

/-- **C05.**  After every history of appends the string of a builder is the
concatenation of everything appended since the last clear; it is terminated by a NUL inside the
allocated buffer, and no write left the buffer. -/
theorem C05_builder (start : Nat) (cs : List Builder.Cmd) (h : ∀ c ∈ cs, NoNul c) :
    ∃ v w, Builder.create start = .ok v ∧ Builder.run v cs = .ok w ∧ Builder.toStr w = .ok (text [] cs) ∧
      w.count = (text [] cs).length + 1 ∧ w.count ≤ w.size ∧ w.size = w.buffer.length ∧
      w.get (text [] cs).length = .ok nul := by
  obtain ⟨v, h1, h2, h3⟩ := Builder.create_rep start
  obtain ⟨w, h4, h5, h6, h7⟩ := run_builder (s := []) h2 (by simp) cs h
  refine ⟨v, w, h1, h4, Builder.Rep.toStr h5 h6, by simp [h5.count], h5.room, h7 h3, ?_⟩
  rw [h5.get _ (by simp)]
  simp

/-- The same for a builder made from an existing string, whatever the size of its block. -/
theorem C05_heapstring (s : Str) (extra : Nat) (cs : List Builder.Cmd) (hs : nul ∉ s) (h : ∀ c ∈ cs, NoNul c) :
    ∃ w, Builder.run (Builder.fromHeap s extra) cs = .ok w ∧ Builder.toStr w = .ok (text s cs) ∧
      w.count = (text s cs).length + 1 ∧ w.count ≤ w.size ∧ w.size ≤ w.buffer.length := by
  have hr : (Builder.fromHeap s extra).Rep (s ++ [nul]) := by
    refine ⟨by simp [Builder.fromHeap], by simp [Builder.fromHeap], by simp [Builder.fromHeap], ?_⟩
    simp only [Builder.fromHeap]
    exact List.take_left' (by simp)
  obtain ⟨w, h4, h5, h6, _⟩ := run_builder hr hs cs h
  exact ⟨w, h4, Builder.Rep.toStr h5 h6, by simp [h5.count], h5.room, h5.size⟩

example : ∃ v w, Builder.create 1 = .ok v ∧ Builder.run v [.append "ab".toList, .char 'c', .append "defgh".toList] = .ok w ∧
    Builder.toStr w = .ok "abcdefgh".toList := by
  obtain ⟨v, w, h1, h2, h3, _⟩ := C05_builder 1 [.append "ab".toList, .char 'c', .append "defgh".toList]
    (by simp [NoNul, nul])
  exact ⟨v, w, h1, h2, h3⟩

end Verif.VectorProps
