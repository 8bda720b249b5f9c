import Verif.Model.TreeUtil

/-!
# Pattern matching and transformation
(src/engine/transformation/matching.c, transformation.c)

A `NodeList` (src/engine/tree/node.h:21-24) is a pointer into an array of
children together with a size.  Where the program reads such an array the model
passes the trees that exist from the pointer on and the claimed size, so that a
read outside of the array is visible (`ub`).  Arrays are shorter than 2^64; the
only arithmetic that may wrap around is the subtraction from the number of
children.
-/

namespace Verif
variable {V : Type}

/-- `MAX_MAPPED_VARS`, src/engine/transformation/matching.h:5 -/
def maxMappedVars : Nat := 10

/-- `MATCHING_MAX_CONSTRAINTS`, matching.h:6 -/
def maxConstraints : Nat := 3

/-- `MATCHING_LIST_PREFIX`, matching.h:7 -/
def isListName : Str → Bool
  | c :: _ => c == '['
  | [] => false

/-- `Matching`, matching.h:22-25: the trees a variable id is bound to; `none` is the
NULL pointer with size 0. -/
abbrev Matching (V : Type) := Nat → Option (List (Tree V))

/-- No variable is bound, matching.c:303. -/
def Matching.empty : Matching V := fun _ => none

/-- `mapped_nodes[id]` -/
def Matching.nodes (m : Matching V) (id : Nat) : Res (List (Tree V)) :=
  if id < maxMappedVars then .ok ((m id).getD []) else .ub

/-- `mapped_nodes[id] = list` -/
def Matching.bind (m : Matching V) (id : Nat) (l : List (Tree V)) : Matching V :=
  fun j => if j = id then some l else m j

/-! ## transformation.c -/

mutual
/-- One round of the loop of `transform_matched_recursive`,
src/engine/transformation/transformation.c:11-24: what stands in place of a child
afterwards.  A variable is replaced by the list it is bound to
(`tree_replace_by_list`), and the inserted nodes are skipped. -/
def transformNode (m : Matching V) : Tree V → Res (List (Tree V))
  | .const v i => .ok [.const v i]
  | .var _ id _ => do
    let l ← m.nodes id
    pure (l.map treeCopy)
  | .op o cs i => do
    let cs' ← transformNodes m cs
    pure [.op o cs' i]
/-- `transform_matched_recursive`, transformation.c:7-26. -/
def transformNodes (m : Matching V) : List (Tree V) → Res (List (Tree V))
  | [] => .ok []
  | c :: cs => do
    let a ← transformNode m c
    let b ← transformNodes m cs
    pure (a ++ b)
end

/-- `transform_matched_recursive`, transformation.c:7-26, statement by statement: the
loop from index `i` on, which changes the node it runs over.  At most `fuel` rounds
of loops and nested calls; `none` if more are needed.  `transformNodes` is what it
comes down to (see `C60_loop`). -/
def transformLoop (m : Matching V) : (fuel : Nat) → Tree V → Nat → Res (Option (Tree V))
  | 0, _, _ => .ok none
  | fuel + 1, .op o cs j, i =>
    match cs[i]? with
    | none => .ok (some (.op o cs j))
    | some (.var _ id _) => do
      let l ← m.nodes id
      let parent ← treeReplaceByList (.op o cs j) i l
      transformLoop m fuel parent (i + l.length)
    | some (.const _ _) => transformLoop m fuel (.op o cs j) (i + 1)
    | some (.op q ds k) => do
      match ← transformLoop m fuel (.op q ds k) 0 with
      | none => pure none
      | some c => transformLoop m fuel (.op o (cs.set i c) j) (i + 1)
  | _ + 1, t, _ => .ok (some t)

/-- `transform_by_matching`, transformation.c:31-50. -/
def transformByMatching (m : Matching V) : Tree V → Res (Tree V)
  | .op o cs i => do
    let cs' ← transformNodes m cs
    pure (.op o cs' i)
  | .var _ id _ => do
    let l ← m.nodes id
    match l with
    | [t] => pure (treeCopy t)
    | _ => .defect
  | .const v i => .ok (.const v i)

/-! ## matching.c -/

/-- `Pattern`, src/engine/transformation/matching.h:12-17; `constraints id` are those
that are checked when the variable `id` is bound. -/
structure Pattern (V : Type) where
  tree : Tree V
  constraints : Nat → List (Tree V)

/-- `nodelists_equal`, src/engine/transformation/matching.c:199-207, after the
comparison of the sizes. -/
def nodelistsEqual (eqV : V → V → Bool) : List (Tree V) → List (Tree V) → Res Bool
  | [], _ => .ok true
  | _ :: _, [] => .ub
  | a :: as, b :: bs => if treeEquals eqV a b then nodelistsEqual eqV as bs else .ok false

/-- Concatenate what a loop pushes to a vector. -/
def Res.flatMap {α β : Type} (f : α → Res (List β)) : List α → Res (List β)
  | [] => .ok []
  | a :: as => do
    let x ← f a
    let y ← Res.flatMap f as
    pure (x ++ y)

/-- The pattern child is a list variable, matching.c:126-127. -/
def Tree.isListVar : Tree V → Bool
  | .var n _ _ => isListName n
  | _ => false

/-- `get_id` of a variable node. -/
def Tree.varId : Tree V → Nat
  | .var _ id _ => id
  | _ => 0

/-- Extension of one suffix node, matching.c:124-191: labels and new sums of the
nodes that are inserted for the pattern child `p`, `last` if it is the last one.
`n` is `num_tree_children`, `s` is `new_sum`.  If `s` exceeds `n`, line 152 wraps
around, so that the sum becomes `n` again, and the loop of line 162 inserts nodes
until memory is exhausted (`defect`). -/
def suffixExtend (m : Matching V) (n : Nat) (p : Tree V) (last : Bool) (s : Nat) :
    Res (List (Nat × Nat)) :=
  if p.isListVar then
    if p.varId < maxMappedVars then
      match m p.varId, decide (s + 1 ≤ n) with
      | some l, true => .ok [(l.length, s + l.length)]
      | _, _ =>
        if last then
          if s ≤ n then .ok [(n - s, n)] else .ok [(2 ^ 64 - (s - n), n)]
        else if s ≤ n + 1 then .ok ((List.range (n + 1 - s)).map fun i => (i, s + i))
        else .defect
    else .ub
  else if s < n then .ok [(1, s + 1)] else .ok []

/-- The suffix nodes of `match_parameter_lists`, matching.c:98-193, level by level
(the vector is worked off first in first out, and a node on level d has d
predecessors).  A node is given by its path: offsets and labels (`sum`, `label`)
from the root on, and `new_sum`. -/
def suffixLevels (m : Matching V) (n : Nat) :
    List (Tree V) → List (List (Nat × Nat) × Nat) → Res (List (List (Nat × Nat) × Nat))
  | [], nodes => .ok nodes
  | p :: ps, nodes => do
    let nodes' ← Res.flatMap (fun x => do
      let ext ← suffixExtend m n p ps.isEmpty x.2
      pure (ext.map fun y => (x.1 ++ [(x.2, y.1)], y.2))) nodes
    suffixLevels m n ps nodes'

/-- Parameters of the matching algorithm: comparison of constants, the pattern's
constraints, and `ConstraintChecker` (matching.h:27), which is called on an
instantiated copy of a constraint. -/
structure MatchCtx (V : Type) where
  eqV : V → V → Bool
  constraints : Nat → List (Tree V)
  checker : Tree V → Bool

/-- Check of the constraints when a variable is bound, matching.c:237-244. -/
def checkConstraints (ctx : MatchCtx V) (m : Matching V) : List (Tree V) → Res Bool
  | [] => .ok true
  | c :: cs => do
    let t ← transformByMatching m c
    if ctx.checker t then checkConstraints ctx m cs else pure false

mutual
/-- `extend_matching`, matching.c:209-278, for the trees `avail` existing at the
pointer of `tree_list` and its size: the matchings pushed to `out_matchings`. -/
def extendMatching (ctx : MatchCtx V) : Tree V → Matching V → List (Tree V) → Nat →
    Res (List (Matching V))
  | .var _ id _, m, avail, size =>
    if id < maxMappedVars then
      match m id with
      | some l =>
        if l.length = size then do
          let b ← nodelistsEqual ctx.eqV l avail
          pure (if b then [m] else [])
        else .ok []
      | none =>
        if size ≤ avail.length then do
          let m' := m.bind id (avail.take size)
          let b ← checkConstraints ctx m' (ctx.constraints id)
          pure (if b then [m'] else [])
        else .ub
    else .ub
  | .const v i, m, avail, size =>
    if size = 1 then
      match avail with
      | [] => .ub
      | t :: _ => .ok (if treeEquals ctx.eqV (.const v i) t then [m] else [])
    else .ok []
  | .op o ps _, m, avail, size =>
    if size = 1 then
      match avail with
      | [] => .ub
      | .op q ts _ :: _ =>
        if o.id = q.id then do
          -- match_parameter_lists, matching.c:75-197
          let nodes ← suffixLevels m ts.length ps [([], 0)]
          Res.flatMap (fun x => fillSuffix ctx ps x.1 ts [m])
            (nodes.filter fun x => x.2 == ts.length)
        else .ok []
      | _ :: _ => .ok []
    else .ok []
/-- `fill_suffix`, matching.c:38-73, along the path of a suffix node: every matching
of the predecessor is extended by the pattern child of the node.  The program
keeps the matchings of inner nodes for later use; the model computes them again. -/
def fillSuffix (ctx : MatchCtx V) : List (Tree V) → List (Nat × Nat) → List (Tree V) →
    List (Matching V) → Res (List (Matching V))
  | p :: ps, (sum, label) :: path, ts, ms => do
    let ms' ← Res.flatMap (fun m => extendMatching ctx p m (ts.drop sum) label) ms
    fillSuffix ctx ps path ts ms'
  | _, _, _, ms => .ok ms
end

/-- `get_all_matchings`, matching.c:289-318. -/
def getAllMatchings (eqV : V → V → Bool) (checker : Tree V → Bool) (pat : Pattern V) (t : Tree V) :
    Res (List (Matching V)) :=
  extendMatching ⟨eqV, pat.constraints, checker⟩ pat.tree Matching.empty [t] 1

/-- `get_matching`, matching.c:327-349. -/
def getMatching (eqV : V → V → Bool) (checker : Tree V → Bool) (pat : Pattern V) (t : Tree V) :
    Res (Option (Matching V)) := do
  let ms ← getAllMatchings eqV checker pat t
  pure ms.head?

mutual
/-- `find_matching`, matching.c:354-366: pointer to the first subtree that matches,
and the matching. -/
def findMatching (eqV : V → V → Bool) (checker : Tree V → Bool) (pat : Pattern V) :
    Tree V → Path → Res (Option (Path × Matching V))
  | .const v i, p => do
    match ← getMatching eqV checker pat (.const v i) with
    | some m => pure (some (p, m))
    | none => pure none
  | .var n x i, p => do
    match ← getMatching eqV checker pat (.var n x i) with
    | some m => pure (some (p, m))
    | none => pure none
  | .op o cs i, p => do
    match ← getMatching eqV checker pat (.op o cs i) with
    | some m => pure (some (p, m))
    | none => findMatchings eqV checker pat cs p 0
/-- The loop of lines 359-363. -/
def findMatchings (eqV : V → V → Bool) (checker : Tree V → Bool) (pat : Pattern V) :
    List (Tree V) → Path → Nat → Res (Option (Path × Matching V))
  | [], _, _ => .ok none
  | c :: cs, p, k => do
    match ← findMatching eqV checker pat c (p ++ [k]) with
    | some r => pure (some r)
    | none => findMatchings eqV checker pat cs p (k + 1)
end

/-- `get_variable_nodes(&t, name, 0, NULL) != 0` -/
def occurs (name : Str) (t : Tree V) : Bool := (varNodes name t [] 0 0).1 != 0

/-- Trigger index of a constraint, matching.c:397-404. -/
def triggerId (vars : List Str) (c : Tree V) : Nat :=
  (vars.zipIdx.filter fun x => occurs x.1 c).foldl (fun _ x => x.2) 0

/-- The loop over the constraints, matching.c:393-414; error -2. -/
def addConstraints (vars : List Str) (cs : Nat → List (Tree V)) : List (Tree V) →
    Option (Nat → List (Tree V))
  | [] => some cs
  | c :: rest =>
    let c' := copyIds vars c
    let k := triggerId vars c'
    if (cs k).length = maxConstraints then none
    else addConstraints vars (fun j => if j = k then cs k ++ [c'] else cs j) rest

/-- `get_pattern`, matching.c:375-416; the error codes -1 and -2. -/
def getPattern (tree : Tree V) (constrs : List (Tree V)) : Except Int (Pattern V) :=
  let r := listVariables maxMappedVars tree
  if r.sufficient then
    match addConstraints r.vars (fun _ => []) constrs with
    | some cs => .ok ⟨r.tree, cs⟩
    | none => .error (-2)
  else .error (-1)

end Verif
