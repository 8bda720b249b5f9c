import Verif.Model.Matching

/-!
# Rewrite rules (src/engine/transformation/rewrite_rule.c)
-/

namespace Verif
variable {V : Type}

/-- `RewriteRule`, src/engine/transformation/rewrite_rule.h:7-11 -/
structure RewriteRule (V : Type) where
  pattern : Pattern V
  after : Tree V

/-- `get_rule`, src/engine/transformation/rewrite_rule.c:16-50; `none` is false. -/
def getRule (pattern : Pattern V) (after : Tree V) : Option (RewriteRule V) :=
  let r := listVariables maxMappedVars after
  let accepted := if countVars after > 0 then
      r.sufficient && r.vars.all fun n => occurs n pattern.tree
    else true
  let after' := if countVars after > 0 then r.tree else after
  if accepted then
    let q := listVariables maxMappedVars pattern.tree
    some ⟨{ pattern with tree := q.tree }, copyIds q.vars after'⟩
  else none

mutual
/-- `set_tok_index_for_all`, rewrite_rule.c:62-72. -/
def setTokAll (k : Nat) : Tree V → Tree V
  | .const v _ => .const v k
  | .var n x _ => .var n x k
  | .op o cs _ => .op o (setTokAlls k cs) k
/-- The loop of lines 67-70. -/
def setTokAlls (k : Nat) : List (Tree V) → List (Tree V)
  | [] => []
  | c :: cs => setTokAll k c :: setTokAlls k cs
end

/-- The node a pointer points to. -/
def Tree.deref : Tree V → Path → Option (Tree V)
  | t, [] => some t
  | .op _ cs _, k :: p =>
    match cs[k]? with
    | some c => Tree.deref c p
    | none => none
  | _, _ :: _ => none

/-- `tree_replace`, src/engine/tree/tree_util.c:77-81, of the node a pointer points to. -/
def Tree.replaceAt : Tree V → Path → Tree V → Tree V
  | _, [], u => u
  | .op o cs i, k :: p, u =>
    match cs[k]? with
    | some c => .op o (cs.set k (Tree.replaceAt c p u)) i
    | none => .op o cs i
  | t, _ :: _, _ => t

/-- `apply_rule`, rewrite_rule.c:80-94: the tree afterwards if the rule was applied. -/
def applyRule (eqV : V → V → Bool) (checker : Tree V → Bool) (rule : RewriteRule V) (t : Tree V) :
    Res (Option (Tree V)) := do
  match ← findMatching eqV checker rule.pattern t [] with
  | none => pure none
  | some (p, m) =>
    match t.deref p with
    | none => .ub
    | some s =>
      let u ← transformByMatching m (setTokAll s.tok (treeCopy rule.after))
      pure (some (t.replaceAt p u))

/-- The inner loop of `apply_ruleset_by_iterator`, rewrite_rule.c:138-153: the tree
after the first rule that can be applied. -/
def applyFirst (eqV : V → V → Bool) (checker : Tree V → Bool) :
    List (RewriteRule V) → Tree V → Res (Option (Tree V))
  | [], _ => .ok none
  | r :: rs, t => do
    match ← applyRule eqV checker r t with
    | some t' => pure (some t')
    | none => applyFirst eqV checker rs t

/-- The outer loop of `apply_ruleset_by_iterator`, rewrite_rule.c:133-166, running at
most `fuel` times; `none` if it runs longer.  Result: tree and return value. -/
def applyLoop (eqV : V → V → Bool) (checker : Tree V → Bool) (rules : List (RewriteRule V))
    (cap : Nat) : (fuel counter : Nat) → Tree V → Res (Option (Tree V × Nat))
  | 0, _, _ => .ok none
  | fuel + 1, counter, t => do
    match ← applyFirst eqV checker rules t with
    | none => pure (some (t, counter))
    | some t' =>
      if counter + 1 = cap then pure (some (t', counter + 1))
      else applyLoop eqV checker rules cap fuel (counter + 1) t'

/-- `apply_ruleset`, rewrite_rule.c:115-119. -/
def applyRuleset (eqV : V → V → Bool) (checker : Tree V → Bool) (rules : List (RewriteRule V))
    (cap fuel : Nat) (t : Tree V) : Res (Option (Tree V × Nat)) :=
  applyLoop eqV checker rules cap fuel 0 t

end Verif
