import Verif.Spec.Dense
/-!
# Contraction of a cluster, from the comment in the code (`recursive_assembly.rs:397-405`), without a traversal

The vertices of the core are replaced by one new vertex; each frontier vertex is joined to it as strongly as it was joined to the core.
-/
namespace Fiksi.Spec
open Finset

/-- An edge between vertices of `S`. -/
def Inside (g : DGraph) (S : Finset Nat) (e : Nat) : Prop := ∀ u ∈ endsOf g e, u ∈ S

instance (g : DGraph) (S : Finset Nat) (e : Nat) : Decidable (Inside g S e) := List.decidableBAll _ _

/-- An edge with an end in `frontier`. -/
def Meets (g : DGraph) (frontier : Finset Nat) (e : Nat) : Prop := ∃ f ∈ frontier, f ∈ endsOf g e

/-- How strongly `f` is joined to the other vertices of `S`. -/
def pull (g : DGraph) (edges S : Finset Nat) (f : Nat) : Int := ∑ e ∈ edges with f ∈ endsOf g e ∧ Inside g S e, valencyAt g e

/-- An edge of the cluster that meets its frontier has one end on it and otherwise ends in the core (any number of them); the frontier vertices list their edges. -/
structure Contractible (g : DGraph) (edges S frontier : Finset Nat) : Prop where
  sub : frontier ⊆ S
  range : ∀ e ∈ edges, e < g.constraints.length
  vertex : ∀ f ∈ frontier, ∃ el, g.elements[f]? = some el ∧ (∀ e ∈ edges, el.incidentConstraints.count e ≤ 1) ∧ (∀ e ∈ edges, (e ∈ el.incidentConstraints ↔ f ∈ endsOf g e)) ∧
    ∀ e ∈ el.incidentConstraints, e < g.constraints.length
  one : ∀ e ∈ edges, Inside g S e → Meets g frontier e → (∃ f, (endsOf g e).filter (fun u => u ∈ frontier) = [f]) ∧ ∃ u ∈ endsOf g e, u ∉ frontier

/-- `g'`, `vertices'`, `edges'` arise by contracting the core of a cluster; `c` is the new vertex, and `tied` are the frontier vertices joined to it, in some order. -/
structure Contracted (g : DGraph) (vertices edges S frontier : Finset Nat) (core : List Nat) (tied : List Nat) (g' : DGraph) (vertices' edges' : Finset Nat) : Prop where
  nodup : tied.Nodup
  mem_tied : ∀ f, f ∈ tied ↔ f ∈ frontier ∧ 0 < pull g edges S f
  /-- The core is replaced by one vertex. -/
  vertices : ∀ v, v ∈ vertices' ↔ v ∈ vertices ∧ v ∉ core ∧ v ≠ g.elements.length ∨ v = g.elements.length ∧ tied ≠ []
  elements : g'.elements.length = g.elements.length + 1
  /-- Degrees of freedom of the others stay. -/
  dof : ∀ v < g.elements.length, dofAt g' v = dofAt g v
  /-- Edges stay, and one is added for each tied vertex. -/
  constraints : g'.constraints = g.constraints ++ tied.map (fun f => ⟨pull g edges S f, [f, g.elements.length]⟩)
  /-- The edges inside the cluster that meet the frontier are out of use, the new ones are in use. -/
  edges : ∀ e, e ∈ edges' ↔ e ∈ edges ∧ ¬ (Inside g S e ∧ Meets g frontier e) ∨ g.constraints.length ≤ e ∧ e < g.constraints.length + tied.length
  /-- The vertices list the new edges, each once. -/
  listed : ∀ v el, (g.elements ++ [⟨0, []⟩])[v]? = some el → ∃ dof new, g'.elements[v]? = some ⟨dof, el.incidentConstraints ++ new⟩ ∧ new.Nodup ∧
    ∀ e, e ∈ new ↔ g.constraints.length ≤ e ∧ e < g.constraints.length + tied.length ∧ v ∈ endsOf g' e

end Fiksi.Spec
