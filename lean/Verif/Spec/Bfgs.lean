import Mathlib.Data.Matrix.Mul
import Mathlib.Data.Real.Basic
/-!
# Specification: the (limited-memory) BFGS approximation of the inverse Hessian

Nocedal and Wright, Numerical Optimization, (6.17) and (7.19): each correction `(s, y, ρ)` turns the approximation `H` into
`(1 - ρ s yᵀ) H (1 - ρ y sᵀ) + ρ s sᵀ`.
-/
namespace Fiksi.Spec

open Matrix

/-- One correction. -/
structure Pair (n : Nat) where
  s : Fin n → ℝ
  y : Fin n → ℝ
  rho : ℝ

/-- The BFGS update of the inverse Hessian. -/
def bfgsUpdate {n : Nat} (H : Matrix (Fin n) (Fin n) ℝ) (c : Pair n) : Matrix (Fin n) (Fin n) ℝ :=
  (1 - c.rho • vecMulVec c.s c.y) * H * (1 - c.rho • vecMulVec c.y c.s) + c.rho • vecMulVec c.s c.s

/-- The approximation from the corrections `cs` (oldest first), started with `γ` times the identity. -/
def bfgsMatrix {n : Nat} (γ : ℝ) (cs : List (Pair n)) : Matrix (Fin n) (Fin n) ℝ := cs.foldl bfgsUpdate (γ • 1)

/-- The factor `γ`, Nocedal and Wright (7.20), from the newest correction; 1 without corrections or with `y = 0`. -/
noncomputable def bfgsScale {n : Nat} (newest : Option (Pair n)) : ℝ :=
  match newest with
  | some c => if 0 < c.y ⬝ᵥ c.y then (c.s ⬝ᵥ c.y) / (c.y ⬝ᵥ c.y) else 1
  | none => 1

end Fiksi.Spec
