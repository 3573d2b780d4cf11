import Verif.Model.Solve
/-!
# Which elements a recombination step of recursive assembly solves for, and what each cluster carries along

Written from the documentation of `ClusteredSystem::build`, `assemble/mod.rs:340-350`, without the loops.
-/
namespace Fiksi.Spec

/-- Point `e` is on the frontier of cluster `c`. -/
def OnFrontier (step : RecombinationStep) (c e : Nat) : Prop := ∃ l, step.onFrontiers.get? e = some l ∧ c ∈ l

/-- Element `e` is a point. -/
def IsPointAt (elements : List EncodedElement) (e : Nat) : Prop := ∃ k, elements[e]? = some (.point k)

/-- The clusters the step has to move: those with a point of the step on the frontier, and those with a frontier point that is listed for such a cluster. -/
inductive Affected (elements : List EncodedElement) (step : RecombinationStep) : Nat → Prop
  | start {e c : Nat} : e ∈ step.elements → IsPointAt elements e → OnFrontier step c e → Affected elements step c
  | next {c e c' : Nat} {l : List Nat} : Affected elements step c → step.frontierElements.get? c = some l → e ∈ l → IsPointAt elements e → OnFrontier step c' e →
      Affected elements step c'

/-- The elements the step solves for: its own, and the points shared between clusters that it has to move. -/
def SolvedFor (elements : List EncodedElement) (step : RecombinationStep) (e : Nat) : Prop :=
  e ∈ step.elements ∨ ∃ c l, Affected elements step c ∧ step.frontierElements.get? c = some l ∧ e ∈ l ∧ IsPointAt elements e ∧
    ∃ cl, step.onFrontiers.get? e = some cl ∧ 1 < cl.length

/-- Element `e` is owned by cluster `c`. -/
def Owns (step : RecombinationStep) (c e : Nat) : Prop := ∃ l, step.ownedElements.get? c = some l ∧ e ∈ l

/-- Cluster `c` has its own pose in the step. -/
def Posed (elements : List EncodedElement) (step : RecombinationStep) (c : Nat) : Prop :=
  ∃ e, SolvedFor elements step e ∧ IsPointAt elements e ∧ OnFrontier step c e

/-- Point `e` goes along with cluster `c`. -/
def CarriedBy (elements : List EncodedElement) (step : RecombinationStep) (c e : Nat) : Prop :=
  Posed elements step c ∧ IsPointAt elements e ∧ ((SolvedFor elements step e ∧ OnFrontier step c e) ∨ (¬ SolvedFor elements step e ∧ Owns step c e))

/-- The step may move element `e`. -/
def MayMove (elements : List EncodedElement) (step : RecombinationStep) (e : Nat) : Prop :=
  SolvedFor elements step e ∨ ∃ c, Posed elements step c ∧ Owns step c e

end Fiksi.Spec
