import Verif.Model.Basic

/-!
# Growable arrays (src/util/vector.c) and string builders (src/util/string_builder.c)

The buffer is a list of cells, one per element; `none` is memory that was never
written.  Elements are not split into bytes.  Every access outside of the buffer
and every read of an unwritten cell is `ub`.  Allocation always succeeds.
-/

namespace Verif
variable {α : Type}

/-- `Vector`, src/util/vector.h:18-24; the length of `buffer` is the allocated size,
which the program keeps in `buffer_size`. -/
structure Vec (α : Type) where
  count : Nat
  size : Nat
  buffer : List (Option α)
deriving DecidableEq, Repr

/-- `realloc`: the old contents up to the smaller of both sizes, then unwritten memory. -/
def reallocCells (b : List (Option α)) (n : Nat) : List (Option α) :=
  b.take n ++ List.replicate (n - b.length) none

/-- A write of one cell; outside of the buffer `ub`. -/
def writeCell (b : List (Option α)) (i : Nat) (x : α) : Res (List (Option α)) :=
  if i < b.length then .ok (b.set i (some x)) else .ub

/-- A read of one cell. -/
def readCell (b : List (Option α)) (i : Nat) : Res α :=
  match b[i]? with
  | some (some x) => .ok x
  | _ => .ub

/-- `memcpy` to consecutive cells. -/
def writeCells : List (Option α) → Nat → List α → Res (List (Option α))
  | b, _, [] => .ok b
  | b, i, x :: xs => do
    let b' ← writeCell b i x
    writeCells b' (i + 1) xs

namespace Vec

/-- `vec_create`, src/util/vector.c:27-35 -/
def create (start : Nat) : Vec α := ⟨0, start, List.replicate start none⟩

/-- `vec_trim`, vector.c:12-16 -/
def trim (v : Vec α) : Vec α :=
  ⟨v.count, v.count + 1, reallocCells v.buffer (v.count + 1)⟩

/-- One round of the loop of `vec_ensure_size`, vector.c:20-23.  The factor 0.5 is
applied in `double`, which is exact below 2^53 elements. -/
def grow (size : Nat) : Nat := size + max 1 (size / 2)

/-- The loop of `vec_ensure_size`. -/
def growTo (needed size : Nat) : Nat :=
  if needed ≤ size then size else growTo needed (grow size)
termination_by needed - size
decreasing_by simp only [grow]; omega

/-- `vec_ensure_size`, vector.c:18-25 -/
def ensure (v : Vec α) (needed : Nat) : Vec α :=
  ⟨v.count, growTo needed v.size, reallocCells v.buffer (growTo needed v.size)⟩

/-- `vec_clear`, vector.c:37-40 -/
def clear (v : Vec α) : Vec α := { v with count := 0 }

/-- The element `vec_get` points to, vector.c:47-50; the index is not checked. -/
def get (v : Vec α) (i : Nat) : Res α := readCell v.buffer i

/-- `VEC_SET_ELEM`, src/util/vector.h:11 -/
def set (v : Vec α) (i : Nat) (x : α) : Res (Vec α) := do
  let b ← writeCell v.buffer i x
  pure { v with buffer := b }

/-- `vec_push_empty` (vector.c:60-64) followed by a write through the pointer it
returns: `VEC_PUSH_ELEM`, vector.h:10. -/
def pushElem (v : Vec α) (x : α) : Res (Vec α) := do
  let w := v.ensure (v.count + 1)
  let b ← writeCell w.buffer w.count x
  pure { w with count := w.count + 1, buffer := b }

/-- `vec_push_many`, vector.c:66-73 -/
def pushMany (v : Vec α) (xs : List α) : Res (Vec α) := do
  let w := v.ensure (v.count + xs.length)
  let b ← writeCells w.buffer w.count xs
  pure { w with count := w.count + xs.length, buffer := b }

/-- `vec_push`, vector.c:52-55 -/
def push (v : Vec α) (x : α) : Res (Vec α) := v.pushMany [x]

/-- `vec_pop`, vector.c:75-80, and the element the result points to. -/
def pop (v : Vec α) : Res (Vec α × Option α) :=
  if v.count = 0 then .ok (v, none)
  else do
    let x ← v.get (v.count - 1)
    pure ({ v with count := v.count - 1 }, some x)

/-- `vec_peek`, vector.c:82-86 -/
def peek (v : Vec α) : Res (Option α) :=
  if v.count = 0 then .ok none
  else do
    let x ← v.get (v.count - 1)
    pure (some x)

/-- `get_next` of the iterator, vector.c:95-107; the index is `curr_index + 1`, which
`reset` (vector.c:109-112) sets to 0. -/
def next (v : Vec α) (i : Nat) : Res (Nat × Option α) :=
  if i < v.count then do
    let x ← v.get i
    pure (i + 1, some x)
  else .ok (i + 1, none)

/-- The operations on a vector. -/
inductive Cmd (α : Type) where
  | push (x : α)
  | pushElem (x : α)
  | pushMany (xs : List α)
  | pop
  | set (i : Nat) (x : α)
  | ensure (n : Nat)
  | trim
  | clear

/-- One operation and what it returns. -/
def exec (v : Vec α) : Cmd α → Res (Vec α × Option α)
  | .push x => do pure (← v.push x, none)
  | .pushElem x => do pure (← v.pushElem x, none)
  | .pushMany xs => do pure (← v.pushMany xs, none)
  | .pop => v.pop
  | .set i x => do pure (← v.set i x, none)
  | .ensure n => .ok (v.ensure n, none)
  | .trim => .ok (v.trim, none)
  | .clear => .ok (v.clear, none)

/-- A sequence of operations and everything they return. -/
def run (v : Vec α) : List (Cmd α) → Res (Vec α × List (Option α))
  | [] => .ok (v, [])
  | c :: cs => do
    let (v', o) ← v.exec c
    let (v'', os) ← run v' cs
    pure (v'', o :: os)

end Vec

/-! ## String builders -/

/-- `'\0'` -/
abbrev nul : Char := '\x00'

/-- `vsnprintf(buffer + pos, n, …)` where the format expands to `s` (C11 7.21.6.5): at most
`n - 1` characters of `s` and a NUL are written; nothing if `n` is 0. -/
def snprintf (b : List (Option Char)) (pos n : Nat) (s : Str) : Res (List (Option Char)) :=
  if n = 0 then .ok b else writeCells b pos (s.take (n - 1) ++ [nul])

namespace Builder

/-- `strbuilder_create`, src/util/string_builder.c:6-11 -/
def create (start : Nat) : Res (Vec Char) := (Vec.create start).pushElem nul

/-- `strbuilder_from_heapstring`, string_builder.c:14-24; the string is in a block of
its own that is `extra` bytes longer than needed.  The builder only knows about the string's
length. -/
def fromHeap (s : Str) (extra : Nat) : Vec Char :=
  ⟨s.length + 1, s.length + 1, (s ++ [nul]).map some ++ List.replicate extra none⟩

/-- `strbuilder_clear`, string_builder.c:26-30 -/
def clear (v : Vec Char) : Res (Vec Char) := v.clear.pushElem nul

/-- `strbuilder_append_char`, string_builder.c:40-44; `elem_count - 1` is computed in
`size_t`. -/
def appendChar (v : Vec Char) (c : Char) : Res (Vec Char) :=
  if v.count = 0 then .ub
  else do
    let w ← v.set (v.count - 1) c
    w.pushElem nul

/-- `vstrbuilder_append`, string_builder.c:46-67, with a format that expands to `s`. -/
def append (v : Vec Char) (s : Str) : Res (Vec Char) :=
  if v.count = 0 then .ub
  else do
    let b ← snprintf v.buffer (v.count - 1) (v.size - v.count + 1) s
    let w : Vec Char := { v with buffer := b }
    if w.size < w.count + s.length then do
      let w' := w.ensure (w.count + s.length)
      let b' ← snprintf w'.buffer (w'.count - 1) (w'.size - w'.count + 1) s
      pure { w' with count := w'.count + s.length, buffer := b' }
    else pure { w with count := w.count + s.length }

/-- The C string at the start of a block. -/
def readStr : List (Option Char) → Res Str
  | some c :: cs => if c = nul then .ok [] else do
      let s ← readStr cs
      pure (c :: s)
  | _ => .ub

/-- The string `strbuilder_to_str` points to, string_builder.c:70-73 -/
def toStr (v : Vec Char) : Res Str := readStr v.buffer

/-- The operations on a builder. -/
inductive Cmd where
  | append (s : Str)
  | char (c : Char)
  | clear

/-- One operation. -/
def exec (v : Vec Char) : Cmd → Res (Vec Char)
  | .append s => append v s
  | .char c => appendChar v c
  | .clear => clear v

/-- A sequence of operations. -/
def run (v : Vec Char) : List Cmd → Res (Vec Char)
  | [] => .ok v
  | c :: cs => do
    let v' ← exec v c
    run v' cs

end Builder

end Verif
