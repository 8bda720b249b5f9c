import Verif.Model.Matching
import Verif.Model.Session

/-!
# The suffix tree of the matcher
(src/engine/transformation/matching.c:23-197)

`match_parameter_lists` statement by statement: the vector of suffix nodes that grows
while it is worked off, the vector of matchings in which the matchings of a suffix
node are kept, and `fill_suffix` that looks them up by index.  `Model/Matching.lean`
says what comes out of it without the vectors; `C99_same` shows that it is the same.

Vectors are lists of their elements (see C04 for the vectors themselves).  Amounts
are `size_t`: sums and differences are taken modulo 2^64.  `SIZE_MAX`, which denotes
a suffix node that is not computed yet, is `none`; no vector has so many elements.
Loops and recursion are given fuel, `hang` if it does not suffice.
-/

namespace Verif
namespace Suffix
variable {V : Type}

/-- Sum of two numbers of type `size_t` -/
def add (a b : Nat) : Nat := (a + b) % 2 ^ 64

/-- Difference of two numbers of type `size_t` -/
def sub (a b : Nat) : Nat := (a + (2 ^ 64 - b % 2 ^ 64)) % 2 ^ 64

/-- `SuffixNode`, src/engine/transformation/matching.c:23-30 -/
structure Node where
  /-- `first_match_index`; `none` is `SIZE_MAX` -/
  first : Option Nat
  /-- `num_matchings` -/
  num : Nat
  label : Nat
  sum : Nat
  distance : Nat
  /-- `parent_index` -/
  parent : Nat
deriving DecidableEq, Repr

/-- `vec_suffixes` and `vec_local_matchings`, matching.c:84-85 -/
structure Vectors (V : Type) where
  nodes : List Node
  matchings : List (Matching V)

/-- A call of `extend_matching` for one pattern: matching, trees at the pointer of the
list, size of the list; result: what is pushed to `out_matchings`. -/
abbrev Extend (V : Type) := Matching V → List (Tree V) → Nat → Out (List (Matching V))

/-- `vec_get` followed by a read of the element, or a read of an array. -/
def get {α : Type} (l : List α) (i : Nat) : Out α :=
  match l[i]? with
  | some a => .ok a
  | none => .ub

/-- `extend_matching` for `pattern_children[k]`, matching.c:64-69 -/
def extendAt (exts : List (Extend V)) (k : Nat) : Extend V := fun m avail size => do
  let e ← get exts k
  e m avail size

/-- The loop of `fill_suffix`, matching.c:61-70: the matchings from index `first + i`
on, `rest` of them, are extended; what comes out is pushed to the same vector. -/
def extendFrom (e : Extend V) (avail : List (Tree V)) (label first : Nat) :
    (rest i : Nat) → List (Matching V) → Out (List (Matching V))
  | 0, _, ms => .ok ms
  | rest + 1, i, ms => do
    let m ← get ms (first + i)
    let new ← e m avail label
    extendFrom e avail label first rest (i + 1) (ms ++ new)

/-- `fill_suffix`, matching.c:38-73; `exts` are the calls for the children of the
pattern and `ts` the children of the tree. -/
def fill (exts : List (Extend V)) (ts : List (Tree V)) :
    (fuel index : Nat) → Vectors V → Out (Vectors V)
  | 0, _, _ => .hang
  | fuel + 1, i, s => do
    let c ← get s.nodes i
    if c.first.isSome then pure s
    else do
      let s ← fill exts ts fuel c.parent s
      let c ← get s.nodes i
      let c := { c with first := some s.matchings.length }
      let nodes := s.nodes.set i c
      let parent ← get nodes c.parent
      match parent.first with
      | none => .ub
      | some f =>
        let ms ← extendFrom (extendAt exts (sub c.distance 1)) (ts.drop c.sum) c.label f
          parent.num 0 s.matchings
        pure ⟨nodes.set i { c with num := ms.length - s.matchings.length }, ms⟩

/-- The suffix node pushed by lines 134-141, 149-156, 164-171 and 181-188 of matching.c. -/
def child (i : Nat) (c : Node) (label : Nat) : Node :=
  { first := none, num := 0, label := label, sum := add c.sum c.label,
    distance := c.distance + 1, parent := i }

/-- Lines 143-174 of matching.c: the child is a list that is not bound or that does not
fit.  Vectors of 2^63 elements do not exist: the allocation fails. -/
def unbound (k n i : Nat) (c : Node) : Out (List Node) :=
  if c.distance = sub k 1 then .ok [child i c (sub n (add c.sum c.label))]
  else
    let insertions := add (sub n (add c.sum c.label)) 1
    if insertions < 2 ^ 63 then .ok ((List.range insertions).map (child i c)) else .defect

/-- `Extend entry of suffixes`, matching.c:124-191: what is pushed for node `c` with
index `i`.  `ps` are the children of the pattern, `n` is `num_tree_children`. -/
def grow (m : Matching V) (ps : List (Tree V)) (n i : Nat) (c : Node) : Out (List Node) :=
  if c.distance < ps.length then do
    let p ← get ps c.distance
    if p.isListVar then
      if p.varId < maxMappedVars then
        match m p.varId with
        | some l =>
          if add (add c.sum c.label) 1 ≤ n then .ok [child i c l.length]
          else unbound ps.length n i c
        | none => unbound ps.length n i c
      else .ub
    else if add c.sum c.label < n then .ok [child i c 1] else .ok []
  else .ok []

/-- Lines 105-121 of matching.c: an end node is filled and its matchings are copied to
`out_matchings`. -/
def atEnd (exts : List (Extend V)) (k : Nat) (ts : List (Tree V)) (deep i : Nat) (c : Node)
    (s : Vectors V) (out : List (Matching V)) : Out (Node × Vectors V × List (Matching V)) :=
  if add c.sum c.label = ts.length ∧ c.distance = k then do
    let s ← fill exts ts deep i s
    let c ← get s.nodes i
    match c.first with
    | none => .ub
    | some f => pure (c, s, out ++ s.matchings.drop f)
  else .ok (c, s, out)

/-- The loop of `match_parameter_lists`, matching.c:98-193; `deep` is the fuel of
`fill_suffix`. -/
def loop (exts : List (Extend V)) (m : Matching V) (ps ts : List (Tree V)) (deep : Nat) :
    (fuel index : Nat) → Vectors V → List (Matching V) → Out (List (Matching V))
  | 0, _, _, _ => .hang
  | fuel + 1, i, s, out =>
    match s.nodes[i]? with
    | none => .ok out
    | some c => do
      let (c, s, out) ← atEnd exts ps.length ts deep i c s out
      let new ← grow m ps ts.length i c
      loop exts m ps ts deep fuel (i + 1) ⟨s.nodes ++ new, s.matchings⟩ out

/-- The first suffix node, matching.c:88-95 -/
def root : Node := { first := some 0, num := 1, label := 0, sum := 0, distance := 0, parent := 0 }

/-- `match_parameter_lists`, matching.c:75-197 -/
def matchLists (exts : List (Extend V)) (m : Matching V) (ps ts : List (Tree V)) (fuel : Nat) :
    Out (List (Matching V)) :=
  loop exts m ps ts fuel fuel 0 ⟨[root], [m]⟩ []

mutual
/-- `extend_matching`, matching.c:209-278.  Variables and constants are as in
`extendMatching`. -/
def extend (ctx : MatchCtx V) (fuel : Nat) : Tree V → Extend V
  | .var n id i => fun m avail size => Out.of (extendMatching ctx (.var n id i) m avail size)
  | .const v i => fun m avail size => Out.of (extendMatching ctx (.const v i) m avail size)
  | .op o ps _ => fun m avail size =>
    if size = 1 then
      match avail with
      | [] => .ub
      | .op q ts _ :: _ =>
        if o.id = q.id then matchLists (extendAll ctx fuel ps) m ps ts fuel else .ok []
      | _ :: _ => .ok []
    else .ok []
/-- The calls for the children of a pattern. -/
def extendAll (ctx : MatchCtx V) (fuel : Nat) : List (Tree V) → List (Extend V)
  | [] => []
  | p :: ps => extend ctx fuel p :: extendAll ctx fuel ps
end

/-- `get_all_matchings`, matching.c:289-318 -/
def allMatchings (fuel : Nat) (eqV : V → V → Bool) (checker : Tree V → Bool) (pat : Pattern V)
    (t : Tree V) : Out (List (Matching V)) :=
  extend ⟨eqV, pat.constraints, checker⟩ fuel pat.tree Matching.empty [t] 1

end Suffix
end Verif
