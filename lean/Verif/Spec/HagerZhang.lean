import Verif.Spec.Line
import Verif.Spec.Bfgs
import Mathlib.Algebra.Order.Group.Abs
/-!
# Specification: the line search of Hager and Zhang, and the L-BFGS method

`fiksi/src/solve/lbfgs.rs` as relations between real numbers and vectors: no buffers, no two-loop recursion, no control flow of the code. The line search is the one
of Hager and Zhang (2005) on a function `φ` with slope `ψ`, with these differences: the first bracket is `[0, 5]`; where a double secant step shrinks the bracket
too little, the old bracket is bisected and not the new one; and after 100 rounds the last middle is taken.
-/
namespace Fiksi.Spec

namespace HagerZhang
variable (φ ψ : ℝ → ℝ)

/-- The conditions on the step: the Wolfe conditions, or the approximate ones. -/
def Good (t : ℝ) : Prop := Wolfe φ ψ (1 / 10000) (9 / 10) t ∨ ApproxWolfe φ ψ (1 / 10000) (9 / 10) (1 / 10 ^ 6) t

/-- Step U3: `[a, b]` is bisected until the slope at its right end is not negative. -/
inductive Bisect : ℝ → ℝ → ℝ → ℝ → Prop
  | done {a b : ℝ} : 0 ≤ ψ ((a + b) / 2) → Bisect a b a ((a + b) / 2)
  | right {a b a' b' : ℝ} : ψ ((a + b) / 2) < 0 → φ ((a + b) / 2) ≤ φ 0 + 1 / 10 ^ 6 → Bisect ((a + b) / 2) b a' b' → Bisect a b a' b'
  | left {a b a' b' : ℝ} : ψ ((a + b) / 2) < 0 → φ 0 + 1 / 10 ^ 6 < φ ((a + b) / 2) → Bisect a ((a + b) / 2) a' b' → Bisect a b a' b'

/-- The update of the bracket `[a, b]` with `c`. -/
inductive Update (a b c : ℝ) : ℝ → ℝ → Prop
  | outside : c < a ∨ b < c → Update a b c a b
  | right : a ≤ c → c ≤ b → 0 ≤ ψ c → Update a b c a c
  | left : a ≤ c → c ≤ b → ψ c < 0 → φ c ≤ φ 0 + 1 / 10 ^ 6 → Update a b c c b
  | bisect {a' b' : ℝ} : a ≤ c → c ≤ b → ψ c < 0 → φ 0 + 1 / 10 ^ 6 < φ c → Bisect φ ψ a c a' b' → Update a b c a' b'

/-- The zero of the line through the slopes at `a` and `b`. -/
noncomputable def secant (a b : ℝ) : ℝ := (a * ψ b - b * ψ a) / (ψ b - ψ a)

/-- A step is found, or a new bracket. -/
inductive Outcome where
  | step (t : ℝ)
  | bracket (a b : ℝ)

/-- The step `t` is tried; if it is not good it updates the bracket. -/
inductive Try (a b t : ℝ) : Outcome → Prop
  | good : Good φ ψ t → Try a b t (.step t)
  | bad {a' b' : ℝ} : ¬ Good φ ψ t → Update φ ψ a b t a' b' → Try a b t (.bracket a' b')

/-- The double secant step: the secant step `c` is tried, and if it becomes an end of the bracket, also the one from the old end to `c`. -/
inductive DoubleSecant (a b : ℝ) : Outcome → Prop
  | good {t : ℝ} : Try φ ψ a b (secant ψ a b) (.step t) → DoubleSecant a b (.step t)
  | upper {a' b' : ℝ} {o : Outcome} : Try φ ψ a b (secant ψ a b) (.bracket a' b') → secant ψ a b = b' → Try φ ψ a' b' (secant ψ b b') o → DoubleSecant a b o
  | lower {a' b' : ℝ} {o : Outcome} : Try φ ψ a b (secant ψ a b) (.bracket a' b') → secant ψ a b ≠ b' → secant ψ a b = a' → Try φ ψ a' b' (secant ψ a a') o →
      DoubleSecant a b o
  | neither {a' b' : ℝ} : Try φ ψ a b (secant ψ a b) (.bracket a' b') → secant ψ a b ≠ b' → secant ψ a b ≠ a' → DoubleSecant a b (.bracket a' b')

/-- With at most `k` rounds from the bracket `[a, b]`, where `c` is the last middle, the search ends with `t`. -/
inductive Search : Nat → ℝ → ℝ → ℝ → ℝ → Prop
  | spent {a b c : ℝ} : Search 0 a b c c
  | found {k : Nat} {a b c t : ℝ} : DoubleSecant φ ψ a b (.step t) → Search (k + 1) a b c t
  | shrunk {k : Nat} {a b c a' b' t : ℝ} : DoubleSecant φ ψ a b (.bracket a' b') → b' - a' ≤ 66 / 100 * (b - a) → Search k a' b' c t → Search (k + 1) a b c t
  | middle {k : Nat} {a b c a' b' t : ℝ} : DoubleSecant φ ψ a b (.bracket a' b') → 66 / 100 * (b - a) < b' - a' → Try φ ψ a b ((a + b) / 2) (.step t) →
      Search (k + 1) a b c t
  | halved {k : Nat} {a b c a' b' a'' b'' t : ℝ} : DoubleSecant φ ψ a b (.bracket a' b') → 66 / 100 * (b - a) < b' - a' →
      Try φ ψ a b ((a + b) / 2) (.bracket a'' b'') → Search k a'' b'' ((a + b) / 2) t → Search (k + 1) a b c t

/-- The line search ends with the step `t`: the step 1 if it is good. -/
inductive Step : ℝ → Prop
  | one : Good φ ψ 1 → Step 1
  | search {t : ℝ} : ¬ Good φ ψ 1 → Search φ ψ 100 0 5 1 t → Step t

end HagerZhang

open Matrix

/-- A function of `n` variables to be minimised. -/
structure Objective (n : Nat) where
  cost : (Fin n → ℝ) → ℝ
  grad : (Fin n → ℝ) → Fin n → ℝ

namespace Objective
variable {n : Nat} (P : Objective n)

/-- The corrections that count. From the sixth iteration on, the last five; the deviation from the method in the iterations before is what
`C27_early_iterations_wrong` is about. -/
def counting (cs : List (Pair n)) : List (Pair n) := if cs.length < 5 then cs.take (2 * cs.length - 5) else cs.drop (cs.length - 5)

/-- The direction at `x`. -/
noncomputable def direction (cs : List (Pair n)) (x : Fin n → ℝ) : Fin n → ℝ := -(bfgsMatrix (bfgsScale cs.getLast?) (counting cs) *ᵥ P.grad x)

/-- `t` is a step along `d` from `x`. -/
def IsStep (x d : Fin n → ℝ) (t : ℝ) : Prop := HagerZhang.Step (fun t => P.cost (x + t • d)) (fun t => P.grad (x + t • d) ⬝ᵥ d) t

/-- The correction of a step from `x` to `x'`. -/
noncomputable def correction (x x' : Fin n → ℝ) : Pair n := ⟨x' - x, P.grad x' - P.grad x, 1 / ((x' - x) ⬝ᵥ (P.grad x' - P.grad x))⟩

/-- After a step from `x` to `x'` there is nothing more to do. -/
def Ends (x x' : Fin n → ℝ) : Prop := |P.cost x - P.cost x'| < 1 / 10 ^ 10 ∨ P.cost x' < 1 / 10 ^ 6

/-- At most `k` steps from `x`, with the corrections `cs` from the steps before, lead to the last argument. -/
inductive Steps : Nat → List (Pair n) → (Fin n → ℝ) → (Fin n → ℝ) → Prop
  | spent {cs : List (Pair n)} {x : Fin n → ℝ} : Steps 0 cs x x
  | last {k : Nat} {cs : List (Pair n)} {x : Fin n → ℝ} {t : ℝ} : P.IsStep x (P.direction cs x) t → P.Ends x (x + t • P.direction cs x) →
      Steps (k + 1) cs x (x + t • P.direction cs x)
  | step {k : Nat} {cs : List (Pair n)} {x z : Fin n → ℝ} {t : ℝ} : P.IsStep x (P.direction cs x) t → ¬ P.Ends x (x + t • P.direction cs x) →
      Steps k (cs ++ [P.correction x (x + t • P.direction cs x)]) (x + t • P.direction cs x) z → Steps (k + 1) cs x z

/-- L-BFGS from `x` ends at `z`. -/
inductive Lbfgs (x : Fin n → ℝ) : (Fin n → ℝ) → Prop
  | small : P.cost x < 1 / 10 ^ 4 → Lbfgs x x
  | steps {z : Fin n → ℝ} : 1 / 10 ^ 4 ≤ P.cost x → P.Steps 100 [] x z → Lbfgs x z

end Objective
end Fiksi.Spec
