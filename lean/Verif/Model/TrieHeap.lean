import Verif.Model.Trie
import Verif.Model.Session

/-!
# Trie nodes in memory (src/util/trie.c)

`Model/Trie.lean` takes a trie as a value.  Here its nodes are what they are in the
program: allocations that point to each other.  An access to an address that is not
allocated is `ub`, and so is freeing it.  `calloc` returns any address that is not in
use, also one that has been freed before.  The payload is part of its node.
-/

namespace Verif
namespace TrieHeap
variable {α : Type}

/-- `struct TrieNode`, src/util/trie.c:15-21, with addresses as pointers. -/
structure Cell (α : Type) where
  terminal : Bool
  numSucc : UInt8
  data : Option α
  next : Fin 92 → Option Nat

/-- The allocated nodes with their addresses. -/
abbrev Mem (α : Type) := List (Nat × Cell α)

/-- `calloc`: returns an address that is not in use. -/
structure Malloc (α : Type) where
  pick : Mem α → Nat
  fresh : ∀ m, ∀ c ∈ m, c.1 ≠ pick m

/-- What is allocated at an address. -/
def get (m : Mem α) (p : Nat) : Option (Cell α) := (m.find? fun c => c.1 = p).map (·.2)

/-- The memory after the node at `p` was written. -/
def put (m : Mem α) (p : Nat) (c : Cell α) : Mem α := m.map fun d => if d.1 = p then (p, c) else d

/-- `free(p)` -/
def free (m : Mem α) (p : Nat) : Out (Mem α) :=
  match get m p with
  | some _ => .ok (m.filter fun c => c.1 ≠ p)
  | none => .ub

/-- A read of the node at `p`. -/
def load (m : Mem α) (p : Nat) : Out (Cell α) :=
  match get m p with
  | some c => .ok c
  | none => .ub

/-- `malloc_trienode`, trie.c:23-26: address and memory. -/
def newNode (M : Malloc α) (m : Mem α) : Nat × Mem α :=
  (M.pick m, (M.pick m, ⟨false, 0, none, fun _ => none⟩) :: m)

/-- Overwriting one successor pointer. -/
def setPtr (f : Fin 92 → Option Nat) (i : Fin 92) (v : Option Nat) : Fin 92 → Option Nat :=
  fun j => if j = i then v else f j

/-- `Trie`, src/util/trie.h:16-21 -/
structure HTrie where
  first : Nat
  count : Nat

/-- `trie_create`, trie.c:41-48 -/
def create (M : Malloc α) (m : Mem α) : HTrie × Mem α :=
  let a := newNode M m
  (⟨a.1, 0⟩, a.2)

/-- One pass of the loop of `destroy_rec`, trie.c:54, for the successor `i` of the node at `p`;
`rec` is the recursive call. -/
def destroyNext (rec : Mem α → Nat → Out (Mem α)) (p : Nat) (m : Mem α) (i : Fin 92) :
    Out (Mem α) := do
  let c ← load m p
  match c.next i with
  | none => pure m
  | some q => rec m q

/-- `destroy_rec`, trie.c:50-57.  At most `fuel` nested calls. -/
def destroyRec : (fuel : Nat) → Mem α → Nat → Out (Mem α)
  | 0, _, _ => .hang
  | fuel + 1, m, p => do
    let m ← (List.finRange 92).foldlM (destroyNext (destroyRec fuel) p) m
    free m p

/-- `trie_destroy`, trie.c:59-63 -/
def destroy (fuel : Nat) (m : Mem α) (t : HTrie) : Out (Mem α) := destroyRec fuel m t.first

/-- The loop of `trie_add_str` from `curr = p` on and the lines after it, trie.c:76-101:
the node whose payload is returned (`none` is NULL) and the memory. -/
def addLoop (M : Malloc α) : Str → Mem α → Nat → Out (Option Nat × Mem α)
  | [], m, p => do
    let c ← load m p
    if c.terminal then pure (none, m)
    else pure (some p, put m p { c with terminal := true })
  | x :: xs, m, p =>
    match charIndex x with
    | none => .defect
    | some i => do
      let c ← load m p
      match c.next i with
      | some q => addLoop M xs m q
      | none => do
        let a := newNode M m
        let c ← load a.2 p
        addLoop M xs (put a.2 p { c with next := setPtr c.next i (some a.1), numSucc := c.numSucc + 1 }) a.1

/-- `trie_add_str`, trie.c:70-101: node of the payload, trie and memory. -/
def addStr (M : Malloc α) (m : Mem α) (t : HTrie) (s : Str) : Out (Option Nat × HTrie × Mem α) := do
  let (r, m) ← addLoop M s m t.first
  pure (r, { t with count := if r.isSome then t.count + 1 else t.count }, m)

/-- A write to the payload of the node at `p`. -/
def setData (m : Mem α) (p : Nat) (a : α) : Out (Mem α) := do
  let c ← load m p
  pure (put m p { c with data := some a })

/-- The end of `remove_rec`, trie.c:125-136: whether the node has been freed. -/
def tidy (m : Mem α) (p depth : Nat) : Out (Bool × Mem α) := do
  let c ← load m p
  if c.numSucc = 0 ∧ depth ≠ 0 ∧ c.terminal = false then do
    let m ← free m p
    pure (true, m)
  else pure (false, m)

/-- `remove_rec`, trie.c:104-137, for the part `s` of the string from index `depth` on:
whether `count` is decremented, whether the node has been freed, the memory. -/
def removeRec : Str → Mem α → (p depth : Nat) → Out (Bool × Bool × Mem α)
  | [], m, p, depth => do
    let c ← load m p
    let (b, m) ← tidy (put m p { c with terminal := false }) p depth
    pure (c.terminal, b, m)
  | x :: xs, m, p, depth =>
    match charIndex x with
    | none => .ok (false, false, m)
    | some i => do
      let c ← load m p
      match c.next i with
      | none => do
        let (b, m) ← tidy m p depth
        pure (false, b, m)
      | some q => do
        let (dec, freed, m) ← removeRec xs m q (depth + 1)
        if freed then do
          let c ← load m p
          let (b, m) ← tidy (put m p { c with next := setPtr c.next i none, numSucc := c.numSucc - 1 }) p depth
          pure (dec, b, m)
        else do
          let (b, m) ← tidy m p depth
          pure (dec, b, m)

/-- `trie_remove_str`, trie.c:139-144 -/
def removeStr (m : Mem α) (t : HTrie) (s : Str) : Out (HTrie × Mem α) := do
  let (dec, _, m) ← removeRec s m t.first 0
  pure ({ t with count := if dec then t.count - 1 else t.count }, m)

/-- Loop of `trie_longest_prefix`, trie.c:175-196, with the result so far: length and the
node whose payload is found. -/
def longestLoop : Str → Mem α → (p i res dat : Nat) → Out (Nat × Nat)
  | [], _, _, _, res, dat => .ok (res, dat)
  | x :: xs, m, p, i, res, dat =>
    match charIndex x with
    | none => .ok (res, dat)
    | some k => do
      let c ← load m p
      match c.next k with
      | none => pure (res, dat)
      | some q => do
        let d ← load m q
        if d.terminal then longestLoop xs m q (i + 1) (i + 1) q
        else longestLoop xs m q (i + 1) res dat

/-- `trie_longest_prefix`, trie.c:166-197 -/
def longestPrefix (m : Mem α) (t : HTrie) (s : Str) : Out (Nat × Nat) :=
  longestLoop s m t.first 0 0 t.first

/-- `trie_contains`, trie.c:148-159: the result and the node of `*out_data`. -/
def contains (m : Mem α) (t : HTrie) (s : Str) : Out (Bool × Nat) :=
  match s with
  | [] => do
    let c ← load m t.first
    pure (c.terminal, t.first)
  | _ :: _ => do
    let r ← longestPrefix m t s
    pure (r.1 == s.length, r.2)

end TrieHeap
end Verif
