import Mathlib.Data.Real.Basic
import Mathlib.Algebra.BigOperators.Group.Finset.Basic
/-!
# Specification: the Levenberg–Marquardt method

The method of `fiksi/src/solve/lm.rs` as a relation between real vectors: no buffers, no factorisation, no control flow of the code.
-/
namespace Fiksi.Spec

/-- A nonlinear least-squares problem with `m` residuals of `n` variables. -/
structure Fitting where
  m : Nat
  n : Nat
  res : List ℝ → List ℝ
  jac : List ℝ → Nat → Nat → ℝ

/-- The sum of the squares of a vector. -/
def squares (v : List ℝ) : ℝ := (v.map (fun t => t ^ 2)).sum

namespace Fitting
variable (P : Fitting)

/-- The sum of squared residuals. -/
def cost (x : List ℝ) : ℝ := squares (P.res x)

/-- `(JᵀJ + lam I) δ = -Jᵀ r`. -/
def IsStep (x : List ℝ) (lam : ℝ) (δ : List ℝ) : Prop :=
  δ.length = P.n ∧ ∀ c < P.n, (∑ r ∈ Finset.range P.m, P.jac x r c * ((∑ c' ∈ Finset.range P.n, P.jac x r c' * δ.getD c' 0) + (P.res x).getD r 0)) + lam * δ.getD c 0 = 0

/-- The point reached by a step. -/
def add (x δ : List ℝ) : List ℝ := List.zipWith (· + ·) x δ

/-- The damping is doubled until the step is tiny or decreases the cost. -/
inductive Search (x : List ℝ) : ℝ → ℝ → List ℝ → Prop
  | found {lam : ℝ} {δ : List ℝ} : P.IsStep x lam δ → (squares δ < 1 / 10 ^ 12 ∨ P.cost (add x δ) < P.cost x) → Search x lam lam δ
  | doubled {lam : ℝ} {δ : List ℝ} {μ : ℝ} {δ' : List ℝ} : P.IsStep x lam δ → 1 / 10 ^ 12 ≤ squares δ → P.cost x ≤ P.cost (add x δ) →
      Search x (2 * lam) μ δ' → Search x lam μ δ'

/-- At most `k` steps from `x` with the damping `lam` end at the last argument. -/
inductive Run : Nat → List ℝ → ℝ → List ℝ → Prop
  /-- No steps left. -/
  | spent {x : List ℝ} {lam : ℝ} : Run 0 x lam x
  /-- Solved. -/
  | solved {k : Nat} {x : List ℝ} {lam : ℝ} : P.cost x < 1 / 10 ^ 8 → Run (k + 1) x lam x
  /-- The step is tiny; it is not taken. -/
  | tiny {k : Nat} {x : List ℝ} {lam μ : ℝ} {δ : List ℝ} : 1 / 10 ^ 8 ≤ P.cost x → P.Search x lam μ δ → squares δ < 1 / 10 ^ 12 → Run (k + 1) x lam x
  /-- The step hardly decreases the cost; it is taken and is the last. -/
  | stalled {k : Nat} {x : List ℝ} {lam μ : ℝ} {δ : List ℝ} : 1 / 10 ^ 8 ≤ P.cost x → P.Search x lam μ δ → 1 / 10 ^ 12 ≤ squares δ →
      P.cost x - P.cost (add x δ) ≤ P.cost x / 10 ^ 6 → Run (k + 1) x lam (add x δ)
  /-- The step is taken, and the damping is divided by eight. -/
  | step {k : Nat} {x : List ℝ} {lam μ : ℝ} {δ z : List ℝ} : 1 / 10 ^ 8 ≤ P.cost x → P.Search x lam μ δ → 1 / 10 ^ 12 ≤ squares δ →
      P.cost x / 10 ^ 6 < P.cost x - P.cost (add x δ) → Run k (add x δ) (max (μ / 8) (1 / 10 ^ 50)) z → Run (k + 1) x lam z

end Fitting
end Fiksi.Spec
