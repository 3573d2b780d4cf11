import Verif.Model.Solve
/-!
# Levenberg–Marquardt (`fiksi/src/solve/lm.rs`)

The sparse QR of `solvi` is a parameter here (`LeastSquares`); `Verif/Model/Qr.lean` models it.
-/
namespace Fiksi

/-- The use `levenberg_marquardt` makes of `solvi`. `build` is `SymbolicQr::build(SparseColMat::from_triplet_mat(…).structure(), Colamd)`
followed by `numeric()`; `solve` replaces the last entry of each column by the damping, factorizes and runs `solve_mut` on the
right-hand side (`lm.rs:119-132`); it returns the contents of the right-hand side buffer, or `none` if it returned `false`. -/
structure LeastSquares (F : Type) where
  Symbolic : Type
  build : Nat → Nat → List (Nat × Nat × F) → R Symbolic
  solve : Symbolic → Nat → Nat → List (Nat × Nat × F) → F → List F → R (Option (List F))

section
variable {F : Type} [Add F] [Sub F] [Mul F] [Div F] [Neg F] [Zero F] [One F] [FloatOps F]
open FloatOps

/-- `norm_squared`, `lm.rs:195-197`. -/
def normSquared (v : List F) : F := (v.map (fun x => x * x)).foldl (· + ·) 0

/-- A decimal fraction `m / n`. -/
def ratio (m n : Nat) : F := ofNat m / ofNat n

/-- The variables of `levenberg_marquardt`. `accepted` is not in the code: it records the values assigned to `variables`. -/
structure LmState (F : Type) where
  vars : List F
  scratch : List F
  residuals : List F
  triplets : List (Nat × Nat × F)
  ssr : F
  lambda : F
  accepted : List (List F)

/-- `calculate_residuals_and_sparse_jacobian`, negation and damping entries, `lm.rs:80-96`, `173-184`. -/
def lmJacobian (p : Problem F) (vars residuals : List F) : R (List F × List (Nat × Nat × F)) := do
  let rt ← p.sparseJacobian vars residuals []
  pure (rt.1.map (fun r => -r), rt.2 ++ (List.range p.numVariables).map (fun i => (p.numResiduals + i, i, (0 : F))))

/-- `variables_scratch[idx] = variables[idx] + delta[idx]`, `lm.rs:144-146`. -/
def lmTrial (vars delta : List F) (scratch : List F) (i : Nat) : R (List F) := do
  let x ← idx vars i
  let d ← idx delta i
  setIdx scratch i (x + d)

/-- The damping after an accepted step, `lm.rs:153-156`. -/
def lmRelax (lambda : F) : F :=
  let lambda := lambda * ratio 125 1000
  if ltB lambda (ratio 1 (10 ^ 50)) then ratio 1 (10 ^ 50) else lambda

/-- An accepted step, `lm.rs:151-186`: `true` stands for `break 'steps`. -/
def lmAccept (p : Problem F) (st : LmState F) (scratch : List F) (ssr : F) : R (Bool × LmState F) := do
  let change := (st.ssr - ssr) / st.ssr
  let st' : LmState F := { st with vars := scratch, scratch := scratch, lambda := lmRelax st.lambda, accepted := st.accepted ++ [scratch] }
  if ltB change (ratio 1 (10 ^ 6)) || eqB change (ratio 1 (10 ^ 6)) then pure (true, st')
  else do
    let rt ← lmJacobian p scratch st.residuals
    pure (false, { st' with ssr := ssr, residuals := rt.1, triplets := rt.2 })

/-- The inner loop, `lm.rs:115-191`: `true` stands for `break 'steps`. The loop has no bound in the code; the model gives up after
`fuel` rounds. -/
def lmInner (p : Problem F) (ls : LeastSquares F) (sym : ls.Symbolic) : Nat → LmState F → R (Bool × LmState F)
  | 0, _ => .error .outOfFuel
  | fuel + 1, st => do
      let solved ← ls.solve sym p.numResiduals p.numVariables st.triplets (sqrt st.lambda)
        (st.residuals ++ List.replicate p.numVariables (0 : F))
      match solved with
      | none => lmInner p ls sym fuel { st with lambda := st.lambda * ofNat 8 }
      | some b =>
          let delta := b.take p.numVariables
          if ltB (normSquared delta) (ratio 1 (10 ^ 12)) then pure (true, st)
          else do
            let scratch ← (List.range p.numVariables).foldlM (lmTrial st.vars delta) st.scratch
            let r ← p.residuals scratch
            if ltB (normSquared r) st.ssr then lmAccept p st scratch (normSquared r)
            else lmInner p ls sym fuel { st with scratch := scratch, lambda := st.lambda * ofNat 2 }

/-- The outer loop, `lm.rs:109-192`. -/
def lmOuter (p : Problem F) (ls : LeastSquares F) (sym : ls.Symbolic) (fuel : Nat) : Nat → LmState F → R (LmState F)
  | 0, st => .ok st
  | n + 1, st =>
      if ltB st.ssr (ratio 1 (10 ^ 8)) then .ok st
      else do
        let (stop, st) ← lmInner p ls sym fuel st
        if stop then pure st else lmOuter p ls sym fuel n st

/-- The state before the outer loop, `lm.rs:65-108`, and the symbolic decomposition. -/
def lmStart (p : Problem F) (ls : LeastSquares F) (vars : List F) : R (LmState F × ls.Symbolic) := do
  let rt ← lmJacobian p vars (List.replicate p.numResiduals 0)
  let sym ← ls.build p.numResiduals p.numVariables rt.2
  pure (⟨vars, vars, rt.1, rt.2, normSquared rt.1, ratio 5 10, []⟩, sym)

/-- `levenberg_marquardt`, `lm.rs:21-193`, with the final values of its variables. -/
def lmRun (p : Problem F) (ls : LeastSquares F) (fuel : Nat) (vars : List F) : R (LmState F) := do
  let start ← lmStart p ls vars
  lmOuter p ls start.2 fuel 100 start.1

/-- `levenberg_marquardt`, `lm.rs:21-193`: the new variables. -/
def levenbergMarquardt (p : Problem F) (ls : LeastSquares F) (fuel : Nat) (vars : List F) : R (List F) := do
  let st ← lmRun p ls fuel vars
  pure st.vars

end

end Fiksi
