import Verif.Model.TrieHeap

/-!
# What it means that memory holds a trie
-/

namespace Verif.TrieOwn
variable {α : Type}

/-- In memory `g` the trie `n` is held by the node at `p`, and `S` are the addresses of its
nodes.  No two branches share a node, and no branch leads back. -/
inductive Own (g : Nat → Option (TrieHeap.Cell α)) : TNode α → Nat → (Nat → Prop) → Prop where
  | mk (t : Bool) (k : UInt8) (d : Option α) (f : Fin 92 → Option (TNode α)) (p : Nat)
      (ptr : Fin 92 → Option Nat) (Ss : Fin 92 → Nat → Prop) (S : Nat → Prop)
      (here : g p = some ⟨t, k, d, ptr⟩)
      (same : ∀ i, (ptr i).isSome = (f i).isSome)
      (none : ∀ i, f i = none → ∀ a, ¬ Ss i a)
      (below : ∀ i c q, f i = some c → ptr i = some q → Own g c q (Ss i))
      (apart : ∀ i a, Ss i a → a ≠ p)
      (disjoint : ∀ i j a, Ss i a → Ss j a → i = j)
      (all : ∀ a, S a ↔ a = p ∨ ∃ i, Ss i a) : Own g (.mk t k d f) p S

/-- In memory `g` the characters `s` lead from the node at `p` to the node at `q`. -/
inductive Leads (g : Nat → Option (TrieHeap.Cell α)) : Nat → Str → Nat → Prop where
  | here (p : Nat) : Leads g p [] p
  | next {p q r : Nat} {x : Char} {s : Str} {i : Fin 92} {c : TrieHeap.Cell α}
      (hx : x.toNat = i.val + 33) (hp : g p = some c) (hq : c.next i = some q)
      (rest : Leads g q s r) : Leads g p (x :: s) r

end Verif.TrieOwn
