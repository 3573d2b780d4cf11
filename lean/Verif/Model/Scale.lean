import Verif.Model.System
/-!
# Scaling before solving (`fiksi/src/assemble/mod.rs:22-80`, `fiksi/src/utils.rs`)
-/
namespace Fiksi

section
variable {F : Type} [Add F] [Sub F] [Mul F] [Div F] [Neg F] [Zero F] [One F] [FloatOps F]

/-- `utils::mean_squares`, `utils.rs:22-28`. -/
def meanSquares (vs : List F) : F := sumSquares vs / FloatOps.ofNat vs.length

/-- `utils::root_mean_squares`, `utils.rs:30-33`. -/
def rootMeanSquares (vs : List F) : F := FloatOps.sqrt (meanSquares vs)

/-- The length-like parameter of an expression (the `filter_map` of `calculate_system_scale`, `assemble/mod.rs:34-42`). -/
def Expr.lengthParameter : Expr F → Option F
  | .pointPointDistance _ _ d => some d
  | .pointLineDistance _ _ _ d => some d
  | _ => none

/-- `calculate_system_scale`, `assemble/mod.rs:32-44`. -/
def System.scale (s : System F) : F := rootMeanSquares (s.vars ++ s.expressions.filterMap Expr.lengthParameter)

/-- `variables_transformed` as computed at the start of `solve`, `assemble/mod.rs:59-71`. In the code it is a scratch vector kept
in the `System`; it is resized and fully overwritten before each use. -/
def System.scaledVariables (s : System F) : List F := s.vars.map (fun v => v * (1 / s.scale))

/-- `expressions_transformed` as computed at the start of `solve`, `assemble/mod.rs:72-78` (also a scratch vector). -/
def System.scaledExpressions (s : System F) : List (Expr F) := s.expressions.map (Expr.transform (1 / s.scale))

end

end Fiksi
