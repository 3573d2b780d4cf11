import Verif.Spec.Matching
import Verif.Spec.Scc
/-!
# Specification: plans that solve equations step by step

A plan is a list of steps. Each step has a set of variables it may change and a list of equations it solves together.
`Reads e v` says that equation `e` reads variable `v`.
-/
namespace Fiksi.Spec

/-- Variable `v` may be paired with equation `e`. -/
def CanPair (Reads : Nat → Nat → Prop) (free : Finset Nat) (v e : Nat) : Prop := v ∈ free ∧ Reads e v

/-- Equation `x` feeds equation `y` under the pairing `M`: they share a free variable that `x` is paired with, or that no equation
is paired with. -/
def Feeds (Reads : Nat → Nat → Prop) (free : Finset Nat) (M : Finset (Nat × Nat)) (x y : Nat) : Prop :=
  x ≠ y ∧ (∃ a, (a, x) ∈ M) ∧ (∃ a, (a, y) ∈ M) ∧
    ∃ v ∈ free, Reads x v ∧ Reads y v ∧ ((v, x) ∈ M ∨ ∀ e, (v, e) ∉ M)

/-- The steps of a plan do not get into each other's way. -/
structure PlanOk (Reads : Nat → Nat → Prop) (free : Finset Nat) (steps : List (Finset Nat × List Nat)) : Prop where
  /-- Each equation is solved at most once. -/
  once : (steps.flatMap Prod.snd).Nodup
  /-- A variable is changed by at most one step. -/
  disjoint : ∀ (i j : Nat) s t, steps[i]? = some s → steps[j]? = some t → i ≠ j → Disjoint s.1 t.1
  /-- Only free variables are changed. -/
  free : ∀ s ∈ steps, s.1 ⊆ free
  /-- A step changes only variables of its own equations. -/
  own : ∀ s ∈ steps, ∀ v ∈ s.1, ∃ e ∈ s.2, Reads e v
  /-- There are at least as many variables as equations, and every step solves something. -/
  enough : ∀ s ∈ steps, s.2 ≠ [] ∧ s.2.length ≤ s.1.card

/-- The steps are in an order in which every free variable read by a step is settled by that step or by an earlier one. -/
def InSolvingOrder (Reads : Nat → Nat → Prop) (free : Finset Nat) (steps : List (Finset Nat × List Nat)) : Prop :=
  ∀ (j : Nat) t, steps[j]? = some t → ∀ e ∈ t.2, ∀ v ∈ free, Reads e v →
    ∃ (i : Nat) (s : Finset Nat × List Nat), i ≤ j ∧ steps[i]? = some s ∧ v ∈ s.1

end Fiksi.Spec
