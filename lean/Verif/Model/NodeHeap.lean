import Verif.Model.Session
import Verif.Model.Rewrite

/-!
# Nodes in memory (src/engine/tree/node.c, tree_util.c, transformation.c, rewrite_rule.c)

Elsewhere in the model trees are values.  Here they are what they are in the
program: nodes in memory that point to each other.  The memory consists of the
allocations that have not been freed yet; every access to another address, to NULL,
outside of the children of a node or to the fields of another kind of node is `ub`,
and so is freeing something twice.  `malloc` returns any address that is not
allocated, also one that has been freed before (`Malloc`); it always succeeds.  A
function that needs more calls and rounds of loops than `fuel` is at `hang`.

A `Node **` is a variable of the program or the place of a child in a node (`Slot`).
The buffer of arguments in `tree_reduce` and the text of a variable name, which is
part of its node, are not allocations of their own.
-/

namespace Verif
variable {V ε : Type}

/-- `VariableNode`, `ConstantNode` and `OperatorNode`, src/engine/tree/node.c:6-27;
`none` among the children is NULL. -/
inductive Cell (V : Type) where
  | const (v : V) (tok : Nat)
  | var (name : Str) (id : Nat) (tok : Nat)
  | op (o : Op) (children : List (Option Nat)) (tok : Nat)
deriving DecidableEq, Repr

/-- The allocated nodes with their addresses, and the variables of type `Node *`. -/
structure Mem (V : Type) where
  cells : List (Nat × Cell V)
  vars : Nat → Option Nat

/-- `malloc`: returns an address that is not in use. -/
structure Malloc (V : Type) where
  pick : List (Nat × Cell V) → Nat
  fresh : ∀ cells, ∀ c ∈ cells, c.1 ≠ pick cells

/-- `Node **` -/
inductive Slot where
  | var (x : Nat)
  | child (p k : Nat)
deriving DecidableEq, Repr

namespace Mem

/-- What is allocated at an address. -/
def get (m : Mem V) (p : Nat) : Option (Cell V) :=
  (m.cells.find? fun c => c.1 = p).map (·.2)

/-- The memory after the node at `p` was written. -/
def put (m : Mem V) (p : Nat) (c : Cell V) : Mem V :=
  { m with cells := m.cells.map fun d => if d.1 = p then (p, c) else d }

/-- `malloc_wrapper` (src/util/alloc_wrappers.c:7-15) followed by the initialization
of the node, node.c:33-61. -/
def alloc (M : Malloc V) (m : Mem V) (c : Cell V) : Nat × Mem V :=
  (M.pick m.cells, { m with cells := (M.pick m.cells, c) :: m.cells })

/-- `free(p)` -/
def free (m : Mem V) (p : Nat) : Out (Mem V) :=
  match m.get p with
  | some _ => .ok { m with cells := m.cells.filter fun c => c.1 ≠ p }
  | none => .ub

/-- The node a pointer points to. -/
def load (m : Mem V) : Option Nat → Out (Cell V)
  | none => .ub
  | some p =>
    match m.get p with
    | some c => .ok c
    | none => .ub

/-- `get_child`, node.c:106-109 -/
def child (m : Mem V) (p k : Nat) : Out (Option Nat) :=
  match m.get p with
  | some (.op _ cs _) =>
    match cs[k]? with
    | some q => .ok q
    | none => .ub
  | _ => .ub

/-- `set_child`, node.c:116-119 -/
def setChild (m : Mem V) (p k : Nat) (q : Option Nat) : Out (Mem V) :=
  match m.get p with
  | some (.op o cs i) => if k < cs.length then .ok (m.put p (.op o (cs.set k q) i)) else .ub
  | _ => .ub

/-- `*slot` -/
def deref (m : Mem V) : Slot → Out (Option Nat)
  | .var x => .ok (m.vars x)
  | .child p k => m.child p k

/-- The memory after a pointer was written to a variable. -/
def setVar (m : Mem V) (x : Nat) (q : Option Nat) : Mem V :=
  { m with vars := fun y => if y = x then q else m.vars y }

/-- `*slot = q` -/
def assign (m : Mem V) : Slot → Option Nat → Out (Mem V)
  | .var x, q => .ok (m.setVar x q)
  | .child p k, q => m.setChild p k q

end Mem

/-! ## node.c -/

mutual
/-- `free_tree`, node.c:63-74. -/
def freeTree : (fuel : Nat) → Mem V → Option Nat → Out (Mem V)
  | 0, _, _ => .hang
  | _ + 1, m, none => .ok m
  | n + 1, m, some p =>
    match m.get p with
    | none => .ub
    | some (.op _ _ _) => do
      let m' ← freeChildren n m p 0
      m'.free p
    | some _ => m.free p
/-- The loop of lines 68-71 from index `i` on. -/
def freeChildren : (fuel : Nat) → Mem V → Nat → Nat → Out (Mem V)
  | 0, _, _, _ => .hang
  | n + 1, m, p, i =>
    match m.get p with
    | some (.op _ cs _) =>
      match cs[i]? with
      | some q => do
        let m' ← freeTree n m q
        freeChildren n m' p (i + 1)
      | none => .ok m
    | _ => .ub
end

/-! ## tree_util.c -/

mutual
/-- `tree_copy`, src/engine/tree/tree_util.c:12-37: the copy and the memory. -/
def copyTree (M : Malloc V) : (fuel : Nat) → Mem V → Option Nat → Out (Option Nat × Mem V)
  | 0, _, _ => .hang
  | _ + 1, m, none => .ok (none, m)
  | n + 1, m, some p =>
    match m.get p with
    | none => .ub
    | some (.const v i) => let a := m.alloc M (.const v i); .ok (some a.1, a.2)
    | some (.var x k i) => let a := m.alloc M (.var x k i); .ok (some a.1, a.2)
    | some (.op o cs i) => do
      let a := m.alloc M (.op o (List.replicate cs.length none) i)
      let m' ← copyChildren M n a.2 p a.1 0
      pure (some a.1, m')
/-- The loop of lines 21-24 from index `i` on; `p` is the node copied, `r` the new one. -/
def copyChildren (M : Malloc V) : (fuel : Nat) → Mem V → (p r i : Nat) → Out (Mem V)
  | 0, _, _, _, _ => .hang
  | n + 1, m, p, r, i =>
    match m.get p with
    | some (.op _ cs _) =>
      match cs[i]? with
      | some q => do
        let a ← copyTree M n m q
        let m' ← a.2.setChild r i a.1
        copyChildren M n m' p r (i + 1)
      | none => .ok m
    | _ => .ub
end

/-- `tree_replace`, tree_util.c:77-81. -/
def replaceTree (fuel : Nat) (m : Mem V) (slot : Slot) (q : Option Nat) : Out (Mem V) := do
  let p ← m.deref slot
  let m' ← freeTree fuel m p
  m'.assign slot q

/-- The loops of lines 97-100 and 105-110: `count` children of `p`, from index `i` on,
become children of `r`, from index `j` on. -/
def moveChildren : (count : Nat) → Mem V → (p i r j : Nat) → Out (Mem V)
  | 0, m, _, _, _, _ => .ok m
  | n + 1, m, p, i, r, j => do
    let q ← m.child p i
    let m' ← m.setChild r j q
    moveChildren n m' p (i + 1) r (j + 1)

/-- The loop of lines 101-104: copies of the trees of a list become children of `r`,
from index `j` on. -/
def copyInto (M : Malloc V) (fuel : Nat) : List Slot → Mem V → (r j : Nat) → Out (Mem V)
  | [], m, _, _ => .ok m
  | s :: ss, m, r, j => do
    let q ← m.deref s
    let a ← copyTree M fuel m q
    let m' ← a.2.setChild r j a.1
    copyInto M fuel ss m' r (j + 1)

/-- `tree_replace_by_list`, tree_util.c:86-118.  `list` are the places `list.nodes[i]`.
`*parent` is read once: nothing before line 112 writes to it. -/
def replaceByList (M : Malloc V) (fuel : Nat) (m : Mem V) (parent : Slot) (k : Nat)
    (list : List Slot) : Out (Mem V) := do
  let p ← m.deref parent
  match p with
  | none => .ub
  | some p =>
    match list with
    | [s] => do
      let q ← m.deref s
      let a ← copyTree M fuel m q
      replaceTree fuel a.2 (.child p k) a.1
    | _ => do
      let c ← m.child p k
      let m1 ← freeTree fuel m c
      match m1.get p with
      | some (.op o cs i) => do
        let a := m1.alloc M (.op o (List.replicate (cs.length - 1 + list.length) none) i)
        let m2 ← moveChildren k a.2 p 0 a.1 0
        let m3 ← copyInto M fuel list m2 a.1 k
        let m4 ← moveChildren (cs.length - k - 1) m3 p (k + 1) a.1 (k + list.length)
        let m5 ← m4.free p
        m5.assign parent (some a.1)
      | _ => .ub

/-- The loops over the children of `*slot` in `replace_variable_nodes`,
`tree_reduce_constant_subtrees` and `tree_reduce_ops` (tree_util.c:351-354, 436-440,
454-457) from index `i` on: `f` is called with the place of each child until it
reports an error. -/
def childLoop (f : Mem V → Slot → Out (Option ε × Mem V)) :
    (fuel : Nat) → Mem V → Slot → Nat → Out (Option ε × Mem V)
  | 0, _, _, _ => .hang
  | n + 1, m, slot, i => do
    let p ← m.deref slot
    match p with
    | none => .ub
    | some p =>
      match m.get p with
      | some (.op _ cs _) =>
        if i < cs.length then do
          let r ← f m (.child p i)
          match r.1 with
          | some e => pure (some e, r.2)
          | none => childLoop f n r.2 slot (i + 1)
        else pure (none, m)
      | _ => .ub

/-- `replace_variable_nodes`, tree_util.c:333-360.  The return value is left out (see
`replaceVar`); there is no error. -/
def replaceVariable (M : Malloc V) (src : Option Nat) (name : Str) :
    (fuel : Nat) → Mem V → Slot → Out (Option Empty × Mem V)
  | 0, _, _ => .hang
  | n + 1, m, slot => do
    let p ← m.deref slot
    match ← m.load p with
    | .const _ _ => pure (none, m)
    | .var x _ _ =>
      if name = x then do
        let a ← copyTree M n m src
        let m' ← replaceTree n a.2 slot a.1
        pure (none, m')
      else pure (none, m)
    | .op _ _ _ => childLoop (replaceVariable M src name n) n m slot 0

mutual
/-- `count_all_variable_nodes`, tree_util.c:124-147. -/
def countVariables : (fuel : Nat) → Mem V → Option Nat → Out Nat
  | 0, _, _ => .hang
  | _ + 1, _, none => .ub
  | n + 1, m, some p =>
    match m.get p with
    | none => .ub
    | some (.const _ _) => .ok 0
    | some (.var _ _ _) => .ok 1
    | some (.op _ cs _) => countVariablesList n m cs
/-- The loop of lines 139-142. -/
def countVariablesList : (fuel : Nat) → Mem V → List (Option Nat) → Out Nat
  | 0, _, _ => .hang
  | _ + 1, _, [] => .ok 0
  | n + 1, m, c :: cs => do
    let a ← countVariables n m c
    let b ← countVariablesList n m cs
    pure (a + b)
end

mutual
/-- `tree_reduce`, tree_util.c:372-414, without `*out_errnode`. -/
def reduceTree (listener : Op → List V → Except ε V) (varErr : ε) :
    (fuel : Nat) → Mem V → Option Nat → Out (Except ε V)
  | 0, _, _ => .hang
  | _ + 1, _, none => .ub
  | n + 1, m, some p =>
    match m.get p with
    | none => .ub
    | some (.const v _) => .ok (.ok v)
    | some (.var _ _ _) => .ok (.error varErr)
    | some (.op o cs _) => do
      match ← reduceTrees listener varErr n m cs with
      | .error e => pure (.error e)
      | .ok args => pure (listener o args)
/-- The loop of lines 385-393. -/
def reduceTrees (listener : Op → List V → Except ε V) (varErr : ε) :
    (fuel : Nat) → Mem V → List (Option Nat) → Out (Except ε (List V))
  | 0, _, _ => .hang
  | _ + 1, _, [] => .ok (.ok [])
  | n + 1, m, c :: cs => do
    match ← reduceTree listener varErr n m c with
    | .error e => pure (.error e)
    | .ok v =>
      match ← reduceTrees listener varErr n m cs with
      | .error e => pure (.error e)
      | .ok vs => pure (.ok (v :: vs))
end

/-- `get_token_index`, node.c:81-84 -/
def Cell.tok : Cell V → Nat
  | .const _ i => i
  | .var _ _ i => i
  | .op _ _ i => i

/-- `tree_reduce_constant_subtrees`, tree_util.c:422-445: the error and the memory. -/
def reduceConstants (M : Malloc V) (listener : Op → List V → Except ε V) (varErr : ε) :
    (fuel : Nat) → Mem V → Slot → Out (Option ε × Mem V)
  | 0, _, _ => .hang
  | n + 1, m, slot => do
    let p ← m.deref slot
    let k ← countVariables n m p
    if k = 0 then do
      match ← reduceTree listener varErr n m p with
      | .error e => pure (some e, m)
      | .ok v => do
        let c ← m.load p
        let a := m.alloc M (.const v c.tok)
        let m' ← replaceTree n a.2 slot (some a.1)
        pure (none, m')
    else
      match ← m.load p with
      | .op _ _ _ => childLoop (reduceConstants M listener varErr n) n m slot 0
      | _ => pure (none, m)

/-! ## rewrite_rule.c, transformation.c -/

mutual
/-- `set_tok_index_for_all`, src/engine/transformation/rewrite_rule.c:62-72. -/
def setToks (k : Nat) : (fuel : Nat) → Mem V → Option Nat → Out (Mem V)
  | 0, _, _ => .hang
  | _ + 1, _, none => .ub
  | n + 1, m, some p =>
    match m.get p with
    | none => .ub
    | some (.const v _) => .ok (m.put p (.const v k))
    | some (.var x id _) => .ok (m.put p (.var x id k))
    | some (.op o cs _) => setToksChildren k n (m.put p (.op o cs k)) p 0
/-- The loop of lines 67-70 from index `i` on. -/
def setToksChildren (k : Nat) : (fuel : Nat) → Mem V → (p i : Nat) → Out (Mem V)
  | 0, _, _, _ => .hang
  | n + 1, m, p, i =>
    match m.get p with
    | some (.op _ cs _) =>
      match cs[i]? with
      | some q => do
        let m' ← setToks k n m q
        setToksChildren k n m' p (i + 1)
      | none => .ok m
    | _ => .ub
end

/-- `Matching`, src/engine/transformation/matching.h:22-25: for every id the places of
the nodes it is bound to. -/
abbrev SlotMatching := Nat → List Slot

/-- `transform_matched_recursive`, src/engine/transformation/transformation.c:7-26, from
index `i` of the loop on. -/
def transformChildren (M : Malloc V) (matching : SlotMatching) :
    (fuel : Nat) → Mem V → Slot → Nat → Out (Mem V)
  | 0, _, _, _ => .hang
  | n + 1, m, parent, i => do
    let p ← m.deref parent
    match p with
    | none => .ub
    | some p =>
      match m.get p with
      | some (.op _ cs _) =>
        match cs[i]? with
        | none => .ok m
        | some c => do
          match ← m.load c with
          | .var _ id _ =>
            if id < maxMappedVars then do
              let m' ← replaceByList M n m parent i (matching id)
              transformChildren M matching n m' parent (i + (matching id).length)
            else .ub
          | .op _ _ _ => do
            let m' ← transformChildren M matching n m (.child p i) 0
            transformChildren M matching n m' parent (i + 1)
          | .const _ _ => transformChildren M matching n m parent (i + 1)
      | _ => .ub

/-- `transform_by_matching`, transformation.c:31-50. -/
def transformTree (M : Malloc V) (matching : SlotMatching) (fuel : Nat) (m : Mem V) (slot : Slot) :
    Out (Mem V) := do
  let p ← m.deref slot
  match ← m.load p with
  | .op _ _ _ => transformChildren M matching fuel m slot 0
  | .var _ id _ =>
    if id < maxMappedVars then
      match matching id with
      | [s] => do
        let q ← m.deref s
        let a ← copyTree M fuel m q
        replaceTree fuel a.2 slot a.1
      | _ => .defect
    else .ub
  | .const _ _ => .ok m

/-- `apply_rule`, rewrite_rule.c:80-94, once `find_matching` has found `matched` and
`matching`; `after` is `rule->after`, `x` the variable `transformed`. -/
def rewriteAt (M : Malloc V) (fuel : Nat) (m : Mem V) (x : Nat) (after : Option Nat)
    (matched : Slot) (matching : SlotMatching) : Out (Mem V) := do
  let a ← copyTree M fuel m after
  let m1 ← a.2.assign (.var x) a.1
  let c ← m1.load (← m1.deref matched)
  let m2 ← setToks c.tok fuel m1 (← m1.deref (.var x))
  let m3 ← transformTree M matching fuel m2 (.var x)
  replaceTree fuel m3 matched (← m3.deref (.var x))

end Verif
