import Verif.Model.Decompose
import Mathlib.Algebra.BigOperators.Group.Finset.Basic
/-!
# Dense subgraphs, from the documentation of `dense_bfs` (`recursive_assembly.rs:485-498`), without a search
-/
namespace Fiksi.Spec
open Finset

/-- Degrees of freedom of a vertex. -/
def dofAt (g : DGraph) (v : Nat) : Int := (g.elements[v]?.map DElement.dof).getD 0

/-- Valency of an edge. -/
def valencyAt (g : DGraph) (e : Nat) : Int := (g.constraints[e]?.map DConstraint.valency).getD 0

/-- The vertices of an edge. -/
def endsOf (g : DGraph) (e : Nat) : List Nat := (g.constraints[e]?.map DConstraint.incidentElements).getD []

/-- Two vertices are joined by an edge of `edges`. -/
def JoinedBy (g : DGraph) (edges : Finset Nat) (u v : Nat) : Prop := ∃ e ∈ edges, u ∈ endsOf g e ∧ v ∈ endsOf g e

/-- A nonempty set of vertices that does not fall apart. -/
def ConnectedSet (g : DGraph) (edges S : Finset Nat) : Prop :=
  S.Nonempty ∧ ∀ A ⊆ S, A.Nonempty → A ≠ S → ∃ v ∈ A, ∃ u ∈ S, u ∉ A ∧ JoinedBy g edges v u

/-- The degrees of freedom of the vertices less the valencies of the edges between them. -/
def freedom (g : DGraph) (edges S : Finset Nat) : Int := ∑ v ∈ S, dofAt g v - ∑ e ∈ edges.filter (fun e => ∀ u ∈ endsOf g e, u ∈ S), valencyAt g e

/-- The graph is consistent: each edge joins at least two vertices, and the vertices list their edges, each once. -/
structure Consistent (g : DGraph) (vertices edges : Finset Nat) : Prop where
  edge : ∀ e ∈ edges, e < g.constraints.length ∧ 2 ≤ (endsOf g e).toFinset.card
  vertex : ∀ v ∈ vertices, ∃ el, g.elements[v]? = some el ∧ (∀ e ∈ edges, el.incidentConstraints.count e ≤ 1) ∧
    ∀ e ∈ edges, (e ∈ el.incidentConstraints ↔ v ∈ endsOf g e)

/-- What `dense_bfs` may return. -/
structure Candidate (env : DenseEnv) (S : Finset Nat) : Prop where
  vertices : S ⊆ env.vertices
  connected : ConnectedSet env.graph env.available S
  size : 2 ≤ S.card
  fresh : S ∉ env.blocked
  free : env.k < freedom env.graph env.available S

end Fiksi.Spec
