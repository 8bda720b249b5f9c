import Verif.Model.Basic

/-!
# Doubly linked lists (src/util/linked_list.c)

The heap maps addresses to nodes; an address without node is not allocated, and every
access to it is `ub`.  NULL is `none`.  `malloc` returns an address of the
caller's choice (the theorems hold for all unused addresses); it always succeeds.
A failing `assert` is `defect`.
-/

namespace Verif
variable {α : Type}

/-- `struct ListNode`, src/util/linked_list.c:10-15 -/
structure ListNode (α : Type) where
  next : Option Nat
  previous : Option Nat
  data : α

/-- The memory. -/
abbrev Heap (α : Type) := Nat → Option (ListNode α)

/-- `LinkedList`, src/util/linked_list.h:13-19 -/
structure LList where
  first : Option Nat
  last : Option Nat
  count : Nat
deriving DecidableEq, Repr

namespace Heap

/-- `*p` -/
def load (h : Heap α) (p : Nat) : Res (ListNode α) :=
  match h p with
  | some n => .ok n
  | none => .ub

/-- The memory after the node at `p` was written. -/
def put (h : Heap α) (p : Nat) (n : ListNode α) : Heap α := fun q => if q = p then some n else h q

/-- `free(p)` -/
def free (h : Heap α) (p : Nat) : Res (Heap α) := do
  let _ ← h.load p
  pure fun q => if q = p then none else h q

/-- `p->next = q` -/
def setNext (h : Heap α) (p : Nat) (q : Option Nat) : Res (Heap α) := do
  let n ← h.load p
  pure (h.put p { n with next := q })

/-- `p->previous = q` -/
def setPrevious (h : Heap α) (p : Nat) (q : Option Nat) : Res (Heap α) := do
  let n ← h.load p
  pure (h.put p { n with previous := q })

end Heap

namespace LList

/-- `list_create`, linked_list.c:28-36 -/
def create : LList := ⟨none, none, 0⟩

/-- The loops of `list_get_node`: `index` steps along `step`. -/
def walk (h : Heap α) (step : ListNode α → Option Nat) : Nat → Option Nat → Res (Option Nat)
  | _, none => .ok none
  | 0, some p => .ok (some p)
  | k + 1, some p => do
    let n ← h.load p
    walk h step k (step n)

/-- `list_get_node`, linked_list.c:59-88 -/
def getNode (h : Heap α) (l : LList) (index : Nat) : Res (Option Nat) :=
  if index < l.count then
    if index < l.count / 2 then walk h (·.next) index l.first
    else walk h (·.previous) (l.count - index - 1) l.last
  else .defect

/-- `list_get_at`, linked_list.c:93-101: the element pointed to. -/
def getAt (h : Heap α) (l : LList) (index : Nat) : Res (Option α) := do
  match ← getNode h l index with
  | none => pure none
  | some p => do
    let n ← h.load p
    pure (some n.data)

/-- The node after `before`, or the first one: linked_list.c:132-140. -/
def nodeAfter (h : Heap α) (l : LList) : Option Nat → Res (Option Nat)
  | none => .ok l.first
  | some b => do
    let n ← h.load b
    pure n.next

/-- `q` becomes the node after `before`, or the first one: linked_list.c:146-153 and 195-202. -/
def linkNext (h : Heap α) (l : LList) (q : Option Nat) : Option Nat → Res (Heap α × LList)
  | none => .ok (h, { l with first := q })
  | some b => do
    let h ← h.setNext b q
    pure (h, l)

/-- `q` becomes the node before `after`, or the last one: linked_list.c:155-162 and 204-211. -/
def linkPrevious (h : Heap α) (l : LList) (q : Option Nat) : Option Nat → Res (Heap α × LList)
  | none => .ok (h, { l with last := q })
  | some b => do
    let h ← h.setPrevious b q
    pure (h, l)

/-- `list_insert_after`, linked_list.c:128-166; `a` is the address of the new node. -/
def insertAfter (h : Heap α) (l : LList) (before : Option Nat) (x : α) (a : Nat) : Res (Heap α × LList) := do
  let after ← nodeAfter h l before
  let (h', l') ← linkNext (h.put a ⟨after, before, x⟩) l (some a) before
  let (h'', l'') ← linkPrevious h' l' (some a) after
  pure (h'', { l'' with count := l''.count + 1 })

/-- `list_append`, linked_list.c:117-120 -/
def append (h : Heap α) (l : LList) (x : α) (a : Nat) : Res (Heap α × LList) := insertAfter h l l.last x a

/-- `list_insert_at`, linked_list.c:174-184 -/
def insertAt (h : Heap α) (l : LList) (index : Nat) (x : α) (a : Nat) : Res (Heap α × LList) :=
  if index = 0 then insertAfter h l none x a
  else do
    let b ← getNode h l (index - 1)
    insertAfter h l b x a

/-- `list_delete_node`, linked_list.c:186-214 -/
def deleteNode (h : Heap α) (l : LList) (node : Nat) : Res (Heap α × LList) := do
  let n ← h.load node
  let h₀ ← h.free node
  let (h', l') ← linkNext h₀ l n.next n.previous
  let (h'', l'') ← linkPrevious h' l' n.previous n.next
  pure (h'', { l'' with count := l''.count - 1 })

/-- `list_delete_at`, linked_list.c:216-219; a NULL node fails the assertion of line 189. -/
def deleteAt (h : Heap α) (l : LList) (index : Nat) : Res (Heap α × LList) := do
  match ← getNode h l index with
  | none => .defect
  | some p => deleteNode h l p

/-- `get_next` of the iterator, linked_list.c:229-249: the new `curr_node`, and the element. -/
def next (h : Heap α) (l : LList) (curr : Option Nat) : Res (Option Nat × Option α) := do
  match ← nodeAfter h l curr with
  | none => pure (none, none)
  | some p => do
    let n ← h.load p
    pure (some p, some n.data)

/-- The loop of `list_destroy`, linked_list.c:45-51; `fuel` bounds the rounds. -/
def destroyFrom (h : Heap α) : Nat → Option Nat → Res (Heap α)
  | _, none => .ok h
  | 0, some _ => .ok h
  | k + 1, some p => do
    let n ← h.load p
    let h' ← h.free p
    destroyFrom h' k n.next

/-- `list_destroy`, linked_list.c:41-53.  A list of `count` nodes needs no more rounds (`C06_destroy`). -/
def destroy (h : Heap α) (l : LList) : Res (Heap α) := destroyFrom h l.count l.first

/-- The operations on a list; `a` is the address `malloc` returns. -/
inductive Cmd (α : Type) where
  | append (x : α) (a : Nat)
  | insertAfter (before : Option Nat) (x : α) (a : Nat)
  | insertAt (index : Nat) (x : α) (a : Nat)
  | deleteNode (node : Nat)
  | deleteAt (index : Nat)

/-- One operation. -/
def exec (h : Heap α) (l : LList) : Cmd α → Res (Heap α × LList)
  | .append x a => append h l x a
  | .insertAfter b x a => insertAfter h l b x a
  | .insertAt i x a => insertAt h l i x a
  | .deleteNode p => deleteNode h l p
  | .deleteAt i => deleteAt h l i

/-- A sequence of operations. -/
def run (h : Heap α) (l : LList) : List (Cmd α) → Res (Heap α × LList)
  | [] => .ok (h, l)
  | c :: cs => do
    let (h', l') ← exec h l c
    run h' l' cs

end LList

end Verif
