import Verif.Model.System
import Verif.Model.Slices
/-!
# Numerical analysis (`fiksi/src/analyze/numerical/mod.rs`)

The tolerance `EPSILON` is an argument `eps` here; the code uses `1e-8`.
-/
namespace Fiksi

section
variable {F : Type} [Add F] [Sub F] [Mul F] [Div F] [Neg F] [Zero F] [One F] [FloatOps F]
open FloatOps

/-- `matrix[target] -= factor * matrix[source]`, `numerical/mod.rs:73-75` and `105-107`. -/
def subtractRow (ncols target source : Nat) (factor : F) (matrix : List F) : R (List F) :=
  (List.range ncols).foldlM (fun (m : List F) col => do
    let a ← idx m (target * ncols + col)
    let b ← idx m (source * ncols + col)
    setIdx m (target * ncols + col) (a - factor * b)) matrix

/-- `matrix[row] *= 1. / factor`, `numerical/mod.rs:95-97`. -/
def scaleRow (ncols row : Nat) (factor : F) (matrix : List F) : R (List F) :=
  (List.range ncols).foldlM (fun (m : List F) col => do
    let a ← idx m (row * ncols + col)
    setIdx m (row * ncols + col) (a * (1 / factor))) matrix

/-- An iteration of the elimination loop, `numerical/mod.rs:68-79`. State: matrix, `rank`. -/
def eliminate (ncols row : Nat) (columns : List Nat) (increases : List Bool) (st : List F × Nat) (rowIdx : Nat) : R (List F × Nat) := do
  let column ← idx columns st.2
  let factor ← idx st.1 (row * ncols + column)
  let matrix ← subtractRow ncols row rowIdx factor st.1
  let independent ← idx increases rowIdx
  pure (matrix, if independent then st.2 + 1 else st.2)

/-- The search for the pivot, `numerical/mod.rs:83-91`, over the remaining `n` candidates from `i` on: the position found. -/
def findPivot (eps : F) (ncols row : Nat) (columns : List Nat) (matrix : List F) : Nat → Nat → R (Option Nat)
  | 0, _ => .ok none
  | n + 1, i => do
      let real ← idx columns i
      let a ← idx matrix (row * ncols + real)
      if ltB eps (abs a) then pure (some i) else findPivot eps ncols row columns matrix n (i + 1)

/-- The variables of `incremental_gauss_jordan_elimination`. -/
structure GaussState (F : Type) where
  matrix : List F
  columns : List Nat
  current : Nat
  increases : List Bool

/-- An iteration of the back-substitution, `numerical/mod.rs:103-108`. -/
def backSubstitute (ncols row column : Nat) (matrix : List F) (rowIdx : Nat) : R (List F) := do
  let factor ← idx matrix (rowIdx * ncols + column)
  subtractRow ncols rowIdx row factor matrix

/-- An iteration of the outer loop, `numerical/mod.rs:66-113`. -/
def gaussRow (eps : F) (ncols : Nat) (st : GaussState F) (row : Nat) : R (GaussState F) := do
  let (matrix, _) ← (List.range row).foldlM (eliminate ncols row st.columns st.increases) (st.matrix, 0)
  match ← findPivot eps ncols row st.columns matrix (ncols - st.current) st.current with
  | none => pure { st with matrix := matrix }
  | some i => do
      let columns ← swapIdx st.columns st.current i
      let column ← idx columns st.current
      let factor ← idx matrix (row * ncols + column)
      let matrix ← scaleRow ncols row factor matrix
      let matrix ← (List.range row).foldlM (backSubstitute ncols row column) matrix
      let increases ← setIdx st.increases row true
      pure ⟨matrix, columns, st.current + 1, increases⟩

/-- `incremental_gauss_jordan_elimination`, `numerical/mod.rs:33-117`. -/
def gaussJordan (eps : F) (matrix : List F) (nrows ncols : Nat) (columns : List Nat) : R (GaussState F) :=
  (List.range (min nrows ncols)).foldlM (gaussRow eps ncols) ⟨matrix, columns, 0, List.replicate nrows false⟩

/-- One row of the Jacobian of all expressions with all variables free, `numerical/mod.rs:139-143`. -/
def System.analysisRow (s : System F) (state : List F × List F) (rowId : Expr F × Nat) : R (List F × List F) := do
  let n := s.vars.length
  if state.2.length < (rowId.2 + 1) * n then .error .indexOutOfBounds
  else
    let (r, g) ← rowId.1.calculateResidualAndGradient (identityMap s.vars) ((state.2.drop (rowId.2 * n)).take n)
    let residuals ← setIdx state.1 rowId.2 r
    pure (residuals, state.2.take (rowId.2 * n) ++ g ++ state.2.drop ((rowId.2 + 1) * n))

/-- The handle pushed for a dependent expression, `numerical/mod.rs:153-158`. -/
def System.overconstraint (s : System F) (expressionId : Nat) : R AnyConstraintHandle := do
  let constraint ← idx s.expressionToConstraint expressionId
  let encoded ← idx s.constraints constraint
  pure ⟨s.id, constraint, encoded.tag⟩

/-- `find_overconstraints`, `numerical/mod.rs:123-163`. -/
def System.findOverconstraints (eps : F) (s : System F) : R (List AnyConstraintHandle) := do
  let nE := s.expressions.length
  let nV := s.vars.length
  let (_, jacobian) ← s.expressions.zipIdx.foldlM s.analysisRow (List.replicate nE 0, List.replicate (nE * nV) 0)
  let st ← gaussJordan eps jacobian nE nV (List.range nV)
  (st.increases.zipIdx.filter (fun p => !p.1)).mapM (fun p => s.overconstraint p.2)

/-- `System::analyze`, `lib.rs:454-458`. -/
def System.analyze (s : System F) : R (List AnyConstraintHandle) := s.findOverconstraints (ofNat 1 / ofNat (10 ^ 8))

end

end Fiksi
