import Verif.Spec.EliminationTree
/-!
# What the symbolic and the numeric factorisation mean
-/
namespace Fiksi.Spec

/-- Full structural column rank: every column can be given a row of its own in which it has an entry. -/
def FullRank (a : SparseStructure) : Prop :=
  ∃ g : Nat → Nat, (∀ c, c < a.ncols → Has a (g c) c) ∧ ∀ c c', c < a.ncols → c' < a.ncols → g c = g c' → c = c'

/-- The positions at which the factor `R` of the Cholesky factorisation `R^T R` has an entry, unless values cancel: the diagonal, and `(k, j)` if
eliminating the columns up to `k`, among them one that meets `j`, connects `k` to `j`. -/
def Fill (meet : Nat → Nat → Prop) (k j : Nat) : Prop := k = j ∨ (k < j ∧ ∃ x, Reach meet k k x ∧ meet x j)

end Fiksi.Spec
