import Mathlib.Data.Real.Basic
import Mathlib.Topology.Order.Basic
import Mathlib.Topology.ContinuousOn
import Mathlib.Topology.Instances.Real.Lemmas
/-!
# The conditions on a step length
-/
namespace Fiksi.Spec

/-- The Wolfe conditions on the step `t` along a line, for the objective `φ` with derivative `φ'`: sufficient decrease with `δ`, and the slope
has increased to `σ` times the first one. -/
def Wolfe (φ φ' : ℝ → ℝ) (δ σ t : ℝ) : Prop := φ t ≤ φ 0 + t * (δ * φ' 0) ∧ σ * φ' 0 ≤ φ' t

/-- The approximate Wolfe conditions of Hager and Zhang. -/
def ApproxWolfe (φ φ' : ℝ → ℝ) (δ σ ε t : ℝ) : Prop :=
  φ t ≤ φ 0 + ε ∧ φ' t ≤ (2 * δ - 1) * φ' 0 ∧ σ * φ' 0 ≤ φ' t

/-- To the right of every point of the interval, `φ` either has slopes that are not negative or does not increase; and `φ` is continuous.
(So it is for functions that are continuous and piecewise analytic.) -/
structure Tame (φ ψ : ℝ → ℝ) (a b : ℝ) : Prop where
  cont : ContinuousOn φ (Set.Icc a b)
  side : ∀ t ∈ Set.Ico a b, ∃ s > t, (∀ u ∈ Set.Ioo t s, 0 ≤ ψ u) ∨ (∀ u ∈ Set.Ioo t s, φ u ≤ φ t)

end Fiksi.Spec
