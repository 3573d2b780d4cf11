import Mathlib.Data.Finset.Card
/-!
# Specification: matchings of a bipartite graph
-/
namespace Fiksi.Spec

/-- `M` is a matching of the bipartite graph `Adj`: a set of edges no two of which share an end. -/
structure IsMatching (Adj : Nat → Nat → Prop) (M : Finset (Nat × Nat)) : Prop where
  edge : ∀ p ∈ M, Adj p.1 p.2
  left : ∀ p ∈ M, ∀ q ∈ M, p.1 = q.1 → p = q
  right : ∀ p ∈ M, ∀ q ∈ M, p.2 = q.2 → p = q

/-- `M` is a matching with as many edges as possible. -/
def IsMaximumMatching (Adj : Nat → Nat → Prop) (M : Finset (Nat × Nat)) : Prop :=
  IsMatching Adj M ∧ ∀ M', IsMatching Adj M' → M'.card ≤ M.card

end Fiksi.Spec
