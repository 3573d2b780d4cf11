import Verif.Model.Forest
/-!
# What a rooted forest is
-/
namespace Fiksi.Spec

/-- The distance from a node to its root. -/
inductive DepthOf (parents : List (Option Nat)) : Nat → Nat → Prop where
  | root {v : Nat} : parents[v]? = some none → DepthOf parents v 0
  | step {v p d : Nat} : parents[v]? = some (some p) → DepthOf parents p d → DepthOf parents v (d + 1)

/-- Every node leads to a root: there are no cycles and all parents are in range. -/
def IsForest (parents : List (Option Nat)) : Prop := ∀ v, v < parents.length → ∃ d, DepthOf parents v d

/-- `v` is a proper descendant of `u`. -/
inductive Below (parents : List (Option Nat)) : Nat → Nat → Prop where
  | parent {v u : Nat} : parents[v]? = some (some u) → Below parents v u
  | step {v p u : Nat} : parents[v]? = some (some p) → Below parents p u → Below parents v u

end Fiksi.Spec
