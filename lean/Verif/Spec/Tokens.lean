import Verif.Model.Str

/-!
# Specification of tokenization

`Canon K s ts`: `ts` is the canonical decomposition of the text `s` for the
keyword set `K`: reading from the left, each token is a maximal run of letters,
the longest keyword that starts here, a maximal run of digits, or a single
other character.  Keywords are not searched where a letter stands.
-/

namespace Verif

/-- `k` is the longest non-empty keyword that is a prefix of `s`. -/
def LongestKeyword (K : Str → Prop) (s k : Str) : Prop :=
  k ≠ [] ∧ K k ∧ k <+: s ∧ ∀ k', K k' → k' <+: s → k'.length ≤ k.length

/-- No non-empty keyword is a prefix of `s`. -/
def NoKeyword (K : Str → Prop) (s : Str) : Prop :=
  ∀ k, K k → k <+: s → k = []

inductive Canon (K : Str → Prop) : Str → List Str → Prop where
  | nil : Canon K [] []
  | letters {run rest ts} : run ≠ [] → (∀ c ∈ run, isLetter c = true) →
      headIs isLetter rest = false → Canon K rest ts → Canon K (run ++ rest) (run :: ts)
  | keyword {k rest ts} : headIs isLetter k = false → LongestKeyword K (k ++ rest) k →
      Canon K rest ts → Canon K (k ++ rest) (k :: ts)
  | digits {run rest ts} : run ≠ [] → (∀ c ∈ run, isDigit c = true) →
      headIs isDigit rest = false → NoKeyword K (run ++ rest) →
      Canon K rest ts → Canon K (run ++ rest) (run :: ts)
  | other {c rest ts} : isLetter c = false → isDigit c = false → NoKeyword K (c :: rest) →
      Canon K rest ts → Canon K (c :: rest) ([c] :: ts)

end Verif
