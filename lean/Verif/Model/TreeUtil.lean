import Verif.Model.Tree

/-!
# Tree utilities (src/engine/tree/tree_util.c)

Trees are values, so sharing and freeing of nodes is not modelled; a pointer to a
node inside a tree is a path (the child indices from the root down).  `NULL`
trees, which some functions tolerate, are not modelled.
-/

namespace Verif
variable {V ε : Type}

/-- Child indices from the root of a tree to a node. -/
abbrev Path := List Nat

mutual
/-- `tree_copy`, src/engine/tree/tree_util.c:12-37. -/
def treeCopy : Tree V → Tree V
  | .const v i => .const v i
  | .var n x i => .var n x i
  | .op o cs i => .op o (treeCopies cs) i
/-- The loop of lines 21-24. -/
def treeCopies : List (Tree V) → List (Tree V)
  | [] => []
  | c :: cs => treeCopy c :: treeCopies cs
end

mutual
/-- `tree_equals`, tree_util.c:43-72; `eqV` is `==` on double. -/
def treeEquals (eqV : V → V → Bool) : Tree V → Tree V → Bool
  | .const v _, .const w _ => eqV v w
  | .var n x _, .var m y _ => n == m && x == y
  | .op o cs _, .op p ds _ => o.id == p.id && cs.length == ds.length && childrenEqual eqV cs ds
  | _, _ => false
/-- The loop of lines 63-69; the lengths have been compared before. -/
def childrenEqual (eqV : V → V → Bool) : List (Tree V) → List (Tree V) → Bool
  | [], _ => true
  | _ :: _, [] => false
  | c :: cs, d :: ds => treeEquals eqV c d && childrenEqual eqV cs ds
end

/-- `tree_replace_by_list`, tree_util.c:86-118: the child with index `k` of an
operator node is replaced by copies of the trees of a list.  `ub` if the node is
no operator node or has no such child. -/
def treeReplaceByList (parent : Tree V) (k : Nat) (list : List (Tree V)) : Res (Tree V) :=
  match parent with
  | .op o cs i =>
    if k < cs.length then
      match list with
      | [t] => .ok (.op o (cs.set k (treeCopy t)) i)
      | _ => .ok (.op o (cs.take k ++ list.map treeCopy ++ cs.drop (k + 1)) i)
    else .ub
  | _ => .ub

mutual
/-- `count_all_variable_nodes`, tree_util.c:124-147. -/
def countVars : Tree V → Nat
  | .const _ _ => 0
  | .var _ _ _ => 1
  | .op _ cs _ => countVarsList cs
/-- The loop of lines 139-142. -/
def countVarsList : List (Tree V) → Nat
  | [] => 0
  | c :: cs => countVars c + countVarsList cs
end

mutual
/-- `get_variable_nodes`, tree_util.c:155-202, for a variable name and a tree at
path `p`: `buf` is `buffer_size`, `pos` the offset of `out_instances`.  Result:
number found, and the writes to the buffer as pairs of offset and pointer. -/
def varNodes (name : Str) : Tree V → (p : Path) → (buf pos : Nat) → Nat × List (Nat × Path)
  | .const _ _, _, _, _ => (0, [])
  | .var n _ _, p, buf, pos =>
    if n = name then (1, if 0 < buf then [(pos, p)] else []) else (0, [])
  | .op _ cs _, p, buf, pos => varNodesList name cs p 0 buf pos
/-- The loop of lines 181-196 from the child with index `k` on. -/
def varNodesList (name : Str) : List (Tree V) → (p : Path) → (k buf pos : Nat) → Nat × List (Nat × Path)
  | [], _, _, _, _ => (0, [])
  | c :: cs, p, k, buf, pos =>
    let r := varNodes name c (p ++ [k]) buf pos
    let s := varNodesList name cs p (k + 1) (if buf ≥ r.1 then buf - r.1 else 0) (pos + r.1)
    (r.1 + s.1, r.2 ++ s.2)
end

mutual
/-- `list_variables_rec`, tree_util.c:204-245.  The state is the filled part of
`out_vars` and whether the buffer was sufficient so far (`num_found != -1`).
Returns the tree with its new ids as well. -/
def listVarsRec (buf : Nat) : Tree V → List Str → Bool → Tree V × List Str × Bool
  | .const v i, vs, ok => (.const v i, vs, ok)
  | .var n x i, vs, ok =>
    if ok then
      match vs.idxOf? n with
      | some k => (.var n k i, vs, true)
      | none =>
        if vs.length < buf then (.var n vs.length i, vs ++ [n], true)
        else (.var n x i, vs, false)
    else (.var n x i, vs, false)
  | .op o cs i, vs, ok =>
    if ok then
      let r := listVarsRecs buf cs vs true
      (.op o r.1 i, r.2)
    else (.op o cs i, vs, false)
/-- The loop of lines 236-240. -/
def listVarsRecs (buf : Nat) : List (Tree V) → List Str → Bool → List (Tree V) × List Str × Bool
  | [], vs, ok => ([], vs, ok)
  | c :: cs, vs, ok =>
    let r := listVarsRec buf c vs ok
    let s := listVarsRecs buf cs r.2.1 r.2.2
    (r.1 :: s.1, s.2)
end

/-- What `list_variables` leaves behind: the tree, the buffer, `*out_sufficient_buff`
and the return value. -/
structure ListVars (V : Type) where
  tree : Tree V
  vars : List Str
  sufficient : Bool
  count : Nat

/-- `list_variables`, tree_util.c:278-296. -/
def listVariables (buf : Nat) (t : Tree V) : ListVars V :=
  match listVarsRec buf t [] true with
  | (t', vs, true) => ⟨t', vs, true, vs.length⟩
  | (t', vs, false) => ⟨t', vs, false, buf⟩

mutual
/-- `find_op`, tree_util.c:250-268: pointer to the first operator node with the id
of the given operator. -/
def findOpNode (id : Nat) : Tree V → Path → Option Path
  | .op o cs _, p => if o.id = id then some p else findOpNodes id cs p 0
  | _, _ => none
/-- The loop of lines 260-264. -/
def findOpNodes (id : Nat) : List (Tree V) → Path → Nat → Option Path
  | [], _, _ => none
  | c :: cs, p, k =>
    match findOpNode id c (p ++ [k]) with
    | some q => some q
    | none => findOpNodes id cs p (k + 1)
end

mutual
/-- `tree_copy_IDs`, tree_util.c:298-323. -/
def copyIds (vars : List Str) : Tree V → Tree V
  | .const v i => .const v i
  | .var n x i =>
    match vars.idxOf? n with
    | some k => .var n k i
    | none => .var n x i
  | .op o cs i => .op o (copyIdsList vars cs) i
/-- The loop of lines 317-320. -/
def copyIdsList (vars : List Str) : List (Tree V) → List (Tree V)
  | [] => []
  | c :: cs => copyIds vars c :: copyIdsList vars cs
end

mutual
/-- `replace_variable_nodes`, tree_util.c:333-360: tree and return value. -/
def replaceVar (r : Tree V) (name : Str) : Tree V → Tree V × Nat
  | .const v i => (.const v i, 0)
  | .var n x i => if name = n then (treeCopy r, 1) else (.var n x i, 0)
  | .op o cs i =>
    let s := replaceVars r name cs
    (.op o s.1 i, s.2)
/-- The loop of lines 351-354. -/
def replaceVars (r : Tree V) (name : Str) : List (Tree V) → List (Tree V) × Nat
  | [] => ([], 0)
  | c :: cs =>
    let a := replaceVar r name c
    let b := replaceVars r name cs
    (a.1 :: b.1, a.2 + b.2)
end

mutual
/-- `tree_reduce`, tree_util.c:372-414, of a tree at path `p`: the value, or the
error code and `*out_errnode`.  `listener` is the evaluation function;
`LISTENERERR_VARIABLE_ENCOUNTERED` is `varErr`. -/
def treeReduce (listener : Op → List V → Except ε V) (varErr : ε) :
    Tree V → Path → Except (ε × Path) V
  | .const v _, _ => .ok v
  | .var _ _ _, p => .error (varErr, p)
  | .op o cs _, p =>
    match reduceArgs listener varErr cs p 0 with
    | .error e => .error e
    | .ok args =>
      match listener o args with
      | .error e => .error (e, p)
      | .ok v => .ok v
/-- The loop of lines 385-393. -/
def reduceArgs (listener : Op → List V → Except ε V) (varErr : ε) :
    List (Tree V) → Path → Nat → Except (ε × Path) (List V)
  | [], _, _ => .ok []
  | c :: cs, p, k =>
    match treeReduce listener varErr c (p ++ [k]) with
    | .error e => .error e
    | .ok v =>
      match reduceArgs listener varErr cs p (k + 1) with
      | .error e => .error e
      | .ok vs => .ok (v :: vs)
end

/-- `get_token_index`, src/engine/tree/node.c:81-84 -/
def Tree.tok : Tree V → Nat
  | .const _ i => i
  | .var _ _ i => i
  | .op _ _ i => i

mutual
/-- `tree_reduce_constant_subtrees`, tree_util.c:422-445: the tree afterwards and
the error, if any. -/
def reduceConst (listener : Op → List V → Except ε V) (varErr : ε) :
    Tree V → Path → Tree V × Option (ε × Path)
  | .const v i, p =>
    if countVars (.const v i) = 0 then
      match treeReduce listener varErr (.const v i) p with
      | .error e => (.const v i, some e)
      | .ok r => (.const r i, none)
    else (.const v i, none)
  | .var n x i, p =>
    if countVars (.var n x i : Tree V) = 0 then
      match treeReduce listener varErr (.var n x i) p with
      | .error e => (.var n x i, some e)
      | .ok r => (.const r i, none)
    else (.var n x i, none)
  | .op o cs i, p =>
    if countVars (.op o cs i) = 0 then
      match treeReduce listener varErr (.op o cs i) p with
      | .error e => (.op o cs i, some e)
      | .ok r => (.const r i, none)
    else
      let s := reduceConsts listener varErr cs p 0
      (.op o s.1 i, s.2)
/-- The loop of lines 436-440. -/
def reduceConsts (listener : Op → List V → Except ε V) (varErr : ε) :
    List (Tree V) → Path → Nat → List (Tree V) × Option (ε × Path)
  | [], _, _ => ([], none)
  | c :: cs, p, k =>
    match reduceConst listener varErr c (p ++ [k]) with
    | (c', some e) => (c' :: cs, some e)
    | (c', none) =>
      let s := reduceConsts listener varErr cs p (k + 1)
      (c' :: s.1, s.2)
end

mutual
/-- `tree_reduce_ops`, tree_util.c:450-467.  The operator is recognized by its
address, here by a predicate.  `get_child_addr(*tree, 0)` and the number of
children are handed to the callback: the list of children. -/
def reduceOps (isOp : Op → Bool) (callback : List (Tree V) → Res V) : Tree V → Res (Tree V)
  | .const v i => .ok (.const v i)
  | .var n x i => .ok (.var n x i)
  | .op o cs i => do
    let cs' ← reduceOpsList isOp callback cs
    if isOp o then do
      let v ← callback cs'
      pure (.const v i)
    else pure (.op o cs' i)
/-- The loop of lines 454-457. -/
def reduceOpsList (isOp : Op → Bool) (callback : List (Tree V) → Res V) :
    List (Tree V) → Res (List (Tree V))
  | [] => .ok []
  | c :: cs => do
    let c' ← reduceOps isOp callback c
    let cs' ← reduceOpsList isOp callback cs
    pure (c' :: cs')
end

end Verif
