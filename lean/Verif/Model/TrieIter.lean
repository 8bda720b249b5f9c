import Verif.Model.Trie

/-!
# Iteration over a trie (src/util/trie.c:206-307)

The two arrays of the iterator are functions; the bound 30 (`TRIE_MAX_ITERATOR_DEPTH`, trie.h:12) is checked
at every access, outside of it the outcome is `ub`.  The NUL character ends the current string.
-/

namespace Verif
variable {α : Type}

/-- `TrieIterator`, src/util/trie.h:25-31, without the trie. -/
structure TIter (α : Type) where
  str : Nat → Char
  nodes : Nat → Option (TNode α)

namespace TIter

/-- `TRIE_MAX_ITERATOR_DEPTH` -/
def maxDepth : Nat := 30

/-- `trie_get_iterator`, trie.c:288-296 -/
def start : TIter α := ⟨fun _ => '\x00', fun _ => none⟩

/-- `ti->nodes[k]` -/
def node (it : TIter α) (k : Nat) : Res (Option (TNode α)) :=
  if k < maxDepth then .ok (it.nodes k) else .ub

/-- `ti->nodes[k] = n; ti->curr_str[k] = c` -/
def put (it : TIter α) (k : Nat) (n : Option (TNode α)) (c : Char) : Res (TIter α) :=
  if k < maxDepth then
    .ok ⟨fun j => if j = k then c else it.str j, fun j => if j = k then n else it.nodes j⟩
  else .ub

/-- The loop of `find_terminal`, trie.c:216-224, with `n` characters left (`i = 92 - n`); `rec` is the recursive
call with `depth + 1`. -/
def findLoop (rec : TIter α → Res (TIter α × Option (TNode α))) (depth : Nat) : (n : Nat) → TIter α →
    Res (TIter α × Option (TNode α))
  | 0, it => .ok (it, none)
  | n + 1, it => do
    match ← it.node (depth - 1) with
    | none => .ub
    | some nd =>
      if h : 92 - (n + 1) < 92 then
        match nd.next ⟨92 - (n + 1), h⟩ with
        | none => findLoop rec depth n it
        | some m => do
          let it' ← it.put depth (some m) (Char.ofNat (92 - (n + 1) + 33))
          match ← rec it' with
          | (it'', some r) => pure (it'', some r)
          | (it'', none) => findLoop rec depth n it''
      else .ub

/-- `find_terminal`, trie.c:206-227; `room` is `TRIE_MAX_ITERATOR_DEPTH - depth`. -/
def findTerminal : (room : Nat) → (depth begin : Nat) → (allowSelf : Bool) → TIter α →
    Res (TIter α × Option (TNode α))
  | 0, _, _, _, _ => .defect
  | room + 1, depth, begin, allowSelf, it => do
    match ← it.node (depth - 1) with
    | none => .ub
    | some nd =>
      if allowSelf && nd.terminal then pure (it, some nd)
      else findLoop (findTerminal room (depth + 1) 0 true) depth (92 - begin) it

/-- `while (ti->nodes[depth] != NULL) depth++`, trie.c:235, with `n` cells left before the end of the array. -/
def depthFrom (it : TIter α) : (n k : Nat) → Res Nat
  | 0, _ => .ub
  | n + 1, k =>
    match it.nodes k with
    | none => .ok k
    | some _ => depthFrom it n (k + 1)

/-- The loop "switch character", trie.c:262-270: `k` is `depth - 1`. -/
def switchLoop : (k : Nat) → TIter α → Res (TIter α × Option (TNode α))
  | 0, it => .ok (it, none)
  | k + 1, it => do
    let depth := k + 1
    let c := it.str depth
    let it' ← it.put depth none '\x00'
    match ← findTerminal (maxDepth - depth) depth (c.toNat - 33 + 1) false it' with
    | (it'', some r) => pure (it'', some r)
    | (it'', none) => switchLoop k it''

/-- `get_next`, trie.c:229-280: the payload of the next string (`none`: NULL, the end). -/
def getNext (t : Trie α) (it : TIter α) : Res (TIter α × Option (TNode α)) := do
  let depth ← depthFrom it maxDepth 0
  if depth = 0 then do
    let it1 ← it.put 0 (some t.root) (it.str 0)
    match ← findTerminal (maxDepth - 1) 1 0 true it1 with
    | (it2, some r) => pure (it2, some r)
    | (it2, none) => do
      let it3 ← it2.put 0 none (it2.str 0)
      pure (it3, none)
  else do
    match ← findTerminal (maxDepth - depth) depth 0 false it with
    | (it1, some r) => pure (it1, some r)
    | (it1, none) =>
      match ← switchLoop (depth - 1) it1 with
      | (it2, some r) => pure (it2, some r)
      | (_, none) => pure (start, none)

/-- The characters from position `k` to the next NUL, at most `n` left in the array. -/
def readFrom (it : TIter α) : (n k : Nat) → Res Str
  | 0, _ => .ub
  | n + 1, k =>
    if it.str k = '\x00' then .ok []
    else do
      let s ← readFrom it n (k + 1)
      pure (it.str k :: s)

/-- `trie_get_current_string`, trie.c:301-307 -/
def currentString (it : TIter α) : Res (Option Str) :=
  match it.nodes 0 with
  | none => .ok none
  | some _ => do
    let s ← readFrom it (maxDepth - 1) 1
    pure (some s)

/-- A loop over a trie, `while ((p = iterator_get_next(&ti)) != NULL)`, that collects the strings and what is
found at them, with the iterator it leaves behind; `none` if there are more than `fuel`. -/
def collect (t : Trie α) : (fuel : Nat) → TIter α → Res (Option (List (Option Str × Option α) × TIter α))
  | 0, _ => .ok none
  | fuel + 1, it => do
    match ← getNext t it with
    | (it', none) => pure (some ([], it'))
    | (it', some nd) => do
      let s ← it'.currentString
      match ← collect t fuel it' with
      | none => pure none
      | some (l, e) => pure (some ((s, nd.data) :: l, e))

end TIter
end Verif
