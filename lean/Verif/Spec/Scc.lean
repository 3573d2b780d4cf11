import Mathlib.Logic.Relation
import Mathlib.Data.List.Basic
/-!
# Specification: strongly connected components
-/
namespace Fiksi.Spec

/-- `x` and `y` lie on a common closed walk (or are equal). -/
def StronglyConnected (Edge : Nat → Nat → Prop) (x y : Nat) : Prop :=
  Relation.ReflTransGen Edge x y ∧ Relation.ReflTransGen Edge y x

/-- `blocks` are the strongly connected components of the graph on `vertices`, each listed after every component it has an edge
to. -/
structure IsSccOrder (vertices : List Nat) (Edge : Nat → Nat → Prop) (blocks : List (List Nat)) : Prop where
  /-- Every vertex is in exactly one block, once. -/
  perm : blocks.flatten.Perm vertices
  nonempty : ∀ s ∈ blocks, s ≠ []
  /-- The block of a vertex is its strongly connected component. -/
  exact : ∀ s ∈ blocks, ∀ x ∈ s, ∀ y, y ∈ s ↔ StronglyConnected Edge x y
  /-- Edges lead to the same or to an earlier block. -/
  order : ∀ (i : Nat) (s : List Nat), blocks[i]? = some s → ∀ x ∈ s, ∀ y, Edge x y →
    ∃ (j : Nat) (t : List Nat), j ≤ i ∧ blocks[j]? = some t ∧ y ∈ t

end Fiksi.Spec
