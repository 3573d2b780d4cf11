import Verif.Model.Basic
/-!
# The bipartite expression graph (`fiksi/src/analyze/graph/equations.rs:147-179`)
-/
namespace Fiksi

/-- `ExpressionGraph`, `equations.rs:147-151`. -/
structure ExprGraph where
  vars : List (List Nat)
  expressions : List (List Nat)

/-- `ExpressionGraph::new`, `equations.rs:160-165`. -/
def ExprGraph.new : ExprGraph := ⟨[], []⟩

/-- `ExpressionGraph::insert_variables::<N>`, `equations.rs:167-170`. -/
def ExprGraph.insertVariables (g : ExprGraph) (n : Nat) : ExprGraph :=
  { g with vars := g.vars ++ List.replicate n [] }

/-- The loop of `insert_expression`, `equations.rs:176-178`: push the id on the list of each variable. -/
def pushExpression (id : Nat) (vs : List Nat) (lists : List (List Nat)) : R (List (List Nat)) :=
  vs.foldlM (fun (lists : List (List Nat)) (v : Nat) => do
    let l ← idx lists v
    setIdx lists v (l ++ [id])) lists

/-- `ExpressionGraph::insert_expression`, `equations.rs:172-179`. -/
def ExprGraph.insertExpression (g : ExprGraph) (vs : List Nat) : R ExprGraph := do
  let id ← toU32 g.expressions.length
  let lists ← pushExpression id vs g.vars
  pure { vars := lists, expressions := g.expressions ++ [vs] }

end Fiksi
