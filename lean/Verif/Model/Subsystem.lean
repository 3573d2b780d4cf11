import Verif.Model.Expr
/-!
# Numerical subproblems (`fiksi/src/subsystem.rs`, `fiksi/src/variable_map.rs`)
-/
namespace Fiksi

section
variable {F : Type} [Add F] [Sub F] [Mul F] [Div F] [Neg F] [Zero F] [One F] [FloatOps F]

/-- `Subsystem`, `subsystem.rs:9-24`. The `IndexSet` of free variables is a list without duplicates in insertion order. -/
structure Subsystem (F : Type) where
  systemVariables : List F
  allExpressions : List (Expr F)
  expressions : List Nat
  freeVariables : List Nat

/-- `IndexSetVariableMap::get_value`, `variable_map.rs:57-73`. -/
def Subsystem.getValue (sub : Subsystem F) (freeValues : List F) (systemIdx : Nat) : R (Variable F) :=
  match sub.freeVariables.idxOf? systemIdx with
  | some freeIdx => do
      let v ← idx freeValues freeIdx
      pure (.free v freeIdx)
  | none => do
      let v ← idx sub.systemVariables systemIdx
      pure (.fixed v)

/-- `Subsystem::calculate_residuals`, `subsystem.rs:91-102`. The caller's buffer has one entry per expression and is overwritten;
here the residuals are returned. -/
def Subsystem.calculateResiduals (sub : Subsystem F) (freeValues : List F) : R (List F) :=
  sub.expressions.mapM (fun expressionId => do
    let e ← idx sub.allExpressions expressionId
    e.calculateResidual (sub.getValue freeValues))

/-- One iteration of the loop of `calculate_residuals_and_jacobian`, `subsystem.rs:116-122`: the slice
`jacobian[row * n..(row + 1) * n]` is passed as the gradient. -/
def Subsystem.denseRow (sub : Subsystem F) (freeValues : List F) (state : List F × List F) (rowId : Nat × Nat) :
    R (List F × List F) := do
  let n := sub.freeVariables.length
  let e ← idx sub.allExpressions rowId.1
  if state.2.length < (rowId.2 + 1) * n then .error .indexOutOfBounds
  else
    let (r, g) ← e.calculateResidualAndGradient (sub.getValue freeValues) ((state.2.drop (rowId.2 * n)).take n)
    let residuals ← setIdx state.1 rowId.2 r
    pure (residuals, state.2.take (rowId.2 * n) ++ g ++ state.2.drop ((rowId.2 + 1) * n))

/-- `Subsystem::calculate_residuals_and_jacobian`, `subsystem.rs:104-124`: the dense Jacobian, row by row, in a flat buffer. -/
def Subsystem.denseJacobian (sub : Subsystem F) (freeValues : List F) (residuals jacobian : List F) : R (List F × List F) :=
  sub.expressions.zipIdx.foldlM (sub.denseRow freeValues) (residuals, jacobian)

/-- The triplets pushed for one expression, `subsystem.rs:150-164`. -/
def pushRow (row : Nat) : List (Variable F × F) → List (Nat × Nat × F)
  | [] => []
  | (.free _ c, g) :: rest => (row, c, g) :: pushRow row rest
  | (.fixed _, _) :: rest => pushRow row rest

/-- One iteration of the loop of `calculate_residuals_and_sparse_jacobian`, `subsystem.rs:142-164`. -/
def Subsystem.sparseRow (sub : Subsystem F) (freeValues : List F) (state : List F × List (Nat × Nat × F)) (rowId : Nat × Nat) :
    R (List F × List (Nat × Nat × F)) := do
  let e ← idx sub.allExpressions rowId.1
  let vars ← e.variableIndices.mapM (sub.getValue freeValues)
  let rg ← e.computeResidualAndGradient (vars.map Variable.value)
  let residuals ← setIdx state.1 rowId.2 rg.1
  pure (residuals, state.2 ++ pushRow rowId.2 (vars.zip rg.2))

/-- `Subsystem::calculate_residuals_and_sparse_jacobian`, `subsystem.rs:126-166`: the Jacobian as pushed triplets. -/
def Subsystem.sparseJacobian (sub : Subsystem F) (freeValues : List F) (residuals : List F) (triplets : List (Nat × Nat × F)) :
    R (List F × List (Nat × Nat × F)) :=
  sub.expressions.zipIdx.foldlM (sub.sparseRow freeValues) (residuals, triplets)

end

end Fiksi
