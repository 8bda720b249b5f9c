import Verif.Model.Basic

/-!
# Trie (src/util/trie.c)

A node owns 92 successor pointers (characters '!' .. '|', trie.h:10-11).  The
tree of heap nodes is modelled as an inductive tree; a pointer is `none` when
NULL.  Freshly allocated nodes are zeroed (`calloc`), so the payload is `none`
until it is written.
-/

namespace Verif

/-- `struct TrieNode`, src/util/trie.c:15-21 -/
inductive TNode (α : Type) where
  | mk (terminal : Bool) (numSucc : UInt8) (data : Option α)
      (next : Fin 92 → Option (TNode α))

namespace TNode
variable {α : Type}

def terminal : TNode α → Bool | mk t _ _ _ => t
def numSucc : TNode α → UInt8 | mk _ n _ _ => n
def data : TNode α → Option α | mk _ _ d _ => d
def next : TNode α → Fin 92 → Option (TNode α) | mk _ _ _ f => f

@[simp] theorem terminal_mk (t n d) (f : Fin 92 → Option (TNode α)) : (mk t n d f).terminal = t := rfl
@[simp] theorem numSucc_mk (t n d) (f : Fin 92 → Option (TNode α)) : (mk t n d f).numSucc = n := rfl
@[simp] theorem data_mk (t n d) (f : Fin 92 → Option (TNode α)) : (mk t n d f).data = d := rfl
@[simp] theorem next_mk (t n d) (f : Fin 92 → Option (TNode α)) : (mk t n d f).next = f := rfl

/-- `malloc_trienode`, src/util/trie.c:23-26 -/
def fresh : TNode α := mk false 0 none (fun _ => none)

end TNode

/-- Overwriting one successor pointer. -/
def setNext {α : Type} (f : Fin 92 → Option (TNode α)) (i : Fin 92) (v : Option (TNode α)) :
    Fin 92 → Option (TNode α) :=
  fun j => if j = i then v else f j

/-- `is_legal_char` and `char_to_index`, src/util/trie.c:28-36: index of a legal
character, `none` for an illegal one. -/
def charIndex (c : Char) : Option (Fin 92) :=
  if h : 33 ≤ c.toNat ∧ c.toNat < 125 then some ⟨c.toNat - 33, by omega⟩ else none

/-- `Trie`, src/util/trie.h; `elem_size` is the type `α`. -/
structure Trie (α : Type) where
  count : Nat
  root : TNode α

namespace Trie
variable {α : Type}

/-- `trie_create`, src/util/trie.c:41-48 -/
def create : Trie α := ⟨0, TNode.fresh⟩

/-- Loop and tail of `trie_add_str` below a node, src/util/trie.c:75-100.  The
Boolean tells whether the string is new (a pointer is returned) or a duplicate
(NULL is returned). -/
def addNode : TNode α → Str → Res (TNode α × Bool)
  | n, [] =>
    if n.terminal then .ok (n, false)
    else .ok (.mk true n.numSucc n.data n.next, true)
  | n, c :: cs =>
    match charIndex c with
    | none => .defect
    | some i =>
      match n.next i with
      | none => do
        let (m, b) ← addNode TNode.fresh cs
        pure (.mk n.terminal (n.numSucc + 1) n.data (setNext n.next i (some m)), b)
      | some m => do
        let (m', b) ← addNode m cs
        pure (.mk n.terminal n.numSucc n.data (setNext n.next i (some m')), b)

/-- `trie_add_str`, src/util/trie.c:70-101; the Boolean is "result != NULL". -/
def addStr (t : Trie α) (s : Str) : Res (Trie α × Bool) := do
  let (r, b) ← addNode t.root s
  pure (⟨if b then t.count + 1 else t.count, r⟩, b)

/-- Writing the payload through the pointer returned by `trie_add_str`, i.e. at
the node the string leads to. -/
def setDataNode : TNode α → Str → α → Res (TNode α)
  | .mk t n _ f, [], a => .ok (.mk t n (some a) f)
  | .mk t n d f, c :: cs, a =>
    match charIndex c with
    | none => .ub
    | some i =>
      match f i with
      | none => .ub
      | some m => do
        let m' ← setDataNode m cs a
        pure (.mk t n d (setNext f i (some m')))

/-- Macro `TRIE_ADD_ELEM`, src/util/trie.h:14: writes through NULL (undefined
behaviour) if the string is a duplicate. -/
def addElem (t : Trie α) (s : Str) (a : α) : Res (Trie α) := do
  let (t', b) ← addStr t s
  if b then do
    let r ← setDataNode t'.root s a
    pure ⟨t'.count, r⟩
  else .ub

/-- Tail of `remove_rec`, src/util/trie.c:125-136: a non-terminal node without
successors is freed unless it is the root. -/
def prune (inner dec : Bool) (n : TNode α) : Bool × Option (TNode α) :=
  if n.numSucc == 0 && inner && !n.terminal then (dec, none) else (dec, some n)

/-- `remove_rec`, src/util/trie.c:104-137.  Returns whether `count` was
decremented, and the node, `none` if it has been freed.  `depth != 0` is the
argument `inner`. -/
def removeNode : TNode α → Bool → Str → Bool × Option (TNode α)
  | .mk t n d f, inner, [] => prune inner t (.mk false n d f)
  | .mk t n d f, inner, c :: cs =>
    match charIndex c with
    | none => (false, some (.mk t n d f))
    | some i =>
      match f i with
      | none => prune inner false (.mk t n d f)
      | some m =>
        match removeNode m true cs with
        | (dec, none) => prune inner dec (.mk t (n - 1) d (setNext f i none))
        | (dec, some m') => prune inner dec (.mk t n d (setNext f i (some m')))

/-- `trie_remove_str`, src/util/trie.c:139-144.  The root is never freed
(`depth != 0` is false); if it were, `first_node` would dangle (`ub`). -/
def removeStr (t : Trie α) (s : Str) : Res (Trie α) :=
  match removeNode t.root false s with
  | (dec, some r) => .ok ⟨if dec then t.count - 1 else t.count, r⟩
  | (_, none) => .ub

/-- Loop of `trie_longest_prefix`, src/util/trie.c:175-196, at position `i` with
the result so far. -/
def longestLoop : TNode α → Str → Nat → Nat → Option α → Nat × Option α
  | _, [], _, res, dat => (res, dat)
  | n, c :: cs, i, res, dat =>
    match charIndex c with
    | none => (res, dat)
    | some k =>
      match n.next k with
      | none => (res, dat)
      | some m =>
        if m.terminal then longestLoop m cs (i + 1) (i + 1) m.data
        else longestLoop m cs (i + 1) res dat

/-- `trie_longest_prefix`, src/util/trie.c:166-197: length and payload found. -/
def longestPrefix (t : Trie α) (s : Str) : Nat × Option α :=
  longestLoop t.root s 0 0 t.root.data

/-- `trie_contains`, src/util/trie.c:148-159: result and `*out_data`. -/
def contains (t : Trie α) (s : Str) : Bool × Option α :=
  match s with
  | [] => (t.root.terminal, t.root.data)
  | _ :: _ => ((longestPrefix t s).1 == s.length, (longestPrefix t s).2)

end Trie
end Verif
