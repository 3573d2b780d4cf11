import Verif.Spec.Sparse
/-!
# What the elimination tree is
-/
namespace Fiksi.Spec

/-- Two columns that meet in the graph of the matrix that is factorised: for `A^T A` they have an entry in a common row, for `A` (of which only
the part above the diagonal counts) there is an entry at their crossing. -/
def Meet (symmetric : Bool) (a : SparseStructure) (x y : Nat) : Prop :=
  if symmetric then (x < y ∧ Has a x y) ∨ (y < x ∧ Has a y x) else ∃ i, Has a i x ∧ Has a i y

/-- There is a path from one column to another through columns not larger than `c`. -/
inductive Reach (meet : Nat → Nat → Prop) (c : Nat) : Nat → Nat → Prop where
  | refl {x : Nat} : x ≤ c → Reach meet c x x
  | step {x y z : Nat} : x ≤ c → meet x y → Reach meet c y z → Reach meet c x z

end Fiksi.Spec
