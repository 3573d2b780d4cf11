import Verif.Model.Basic
import Mathlib.Data.Finset.Card
/-!
# Geometric element graph and connected components (`fiksi/src/graph.rs`)
-/
namespace Fiksi

/-- `Element`, `graph.rs:98-104`. -/
structure GElement where
  dof : Nat
  incidentConstraints : List Nat

/-- `Constraint`, `graph.rs:108-115`. `IncidentElements` (`graph.rs:18-56`, at most six inline ids) is a list. -/
structure GConstraint where
  valency : Nat
  incidentElements : List Nat

/-- `ConnectedComponent`, `graph.rs:121-124` (`BTreeSet`s are `Finset`s; iteration in increasing order where it matters). -/
structure Component where
  elements : Finset Nat
  constraints : Finset Nat
  deriving DecidableEq

/-- `ConnectedComponent::default()`. -/
def Component.empty : Component := ⟨∅, ∅⟩

/-- `Graph`, `graph.rs:133-143`. `elementComponent` holds the 1-based (`NonZeroU32`) component index. -/
structure Graph where
  elements : List GElement
  constraints : List GConstraint
  elementComponent : List (Option Nat)
  components : List Component

/-- `Graph::new`, `graph.rs:146-153`. -/
def Graph.new : Graph := ⟨[], [], [], []⟩

/-- `Graph::add_element`, `graph.rs:155-171`. -/
def Graph.addElement (g : Graph) (dof : Nat) : R (Nat × Graph) := do
  let element ← toU32 g.elements.length
  pure (element, { g with
    elements := g.elements ++ [⟨dof, []⟩]
    elementComponent := g.elementComponent ++ [none] })

/-- One iteration of the search for the largest component, `graph.rs:183-191`. State: (target, size of largest). -/
def Graph.pickLargest (g : Graph) (st : Option Nat × Nat) (element : Nat) : R (Option Nat × Nat) := do
  match (← idx g.elementComponent element) with
  | some componentIdx =>
      let component ← idx g.components (componentIdx - 1)
      if component.elements.card > st.2 then
        pure (some componentIdx, component.elements.card)
      else
        pure st
  | none => pure st

/-- State of the merging loop, `graph.rs:206-222`. -/
structure MergeState where
  target : Component
  elementComponent : List (Option Nat)
  components : List Component

/-- One iteration of the merging loop, `graph.rs:211-222`. -/
def mergeStep (targetIdx : Nat) (st : MergeState) (element : Nat) : R MergeState := do
  match (← idx st.elementComponent element) with
  | some componentIdx =>
      let component ← idx st.components (componentIdx - 1)
      let components := st.components.set (componentIdx - 1) Component.empty
      let ec ← setIdx st.elementComponent element (some targetIdx)
      pure {
        target := ⟨st.target.elements ∪ component.elements, st.target.constraints ∪ component.constraints⟩
        elementComponent := ec
        components := components }
  | none =>
      let ec ← setIdx st.elementComponent element (some targetIdx)
      pure {
        target := ⟨insert element st.target.elements, st.target.constraints⟩
        elementComponent := ec
        components := st.components }

/-- `Graph::merge_connected_components`, `graph.rs:178-225`. -/
def Graph.mergeConnectedComponents (g : Graph) (constraint : Nat) (elements : List Nat) : R Graph := do
  -- Find the largest connected component (`graph.rs:180-204`).
  let picked ← elements.foldlM g.pickLargest (none, 0)
  let (targetIdx, components) ← (match picked.1 with
    | some t => (pure (t, g.components) : R (Nat × List Component))
    | none => do
        let components := g.components ++ [Component.empty]
        let t ← toU32 components.length
        pure (t, components))
  -- `core::mem::take` of the target (`graph.rs:206-208`).
  let target ← idx components (targetIdx - 1)
  let st ← elements.foldlM (mergeStep targetIdx)
    { target := target
      elementComponent := g.elementComponent
      components := components.set (targetIdx - 1) Component.empty }
  -- `graph.rs:223-224`.
  let components ← setIdx st.components (targetIdx - 1)
    ⟨st.target.elements, insert constraint st.target.constraints⟩
  pure { g with elementComponent := st.elementComponent, components := components }

/-- `Graph::push_incident_constraint`, `graph.rs:227-233`. -/
def Graph.pushIncidentConstraint (g : Graph) (elements : List Nat) (constraint : Nat) : R Graph := do
  let es ← elements.foldlM (fun (es : List GElement) (e : Nat) => do
    let el ← idx es e
    setIdx es e { el with incidentConstraints := el.incidentConstraints ++ [constraint] }) g.elements
  pure { g with elements := es }

/-- `Graph::add_constraint`, `graph.rs:235-254`. -/
def Graph.addConstraint (g : Graph) (valency : Nat) (incident : List Nat) : R (Nat × Graph) := do
  let constraint ← toU32 g.constraints.length
  let g ← g.mergeConnectedComponents constraint incident
  let g ← g.pushIncidentConstraint incident constraint
  pure (constraint, { g with constraints := g.constraints ++ [⟨valency, incident⟩] })

end Fiksi
