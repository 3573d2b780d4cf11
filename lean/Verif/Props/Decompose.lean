import Verif.Proofs.DecomposeFuel
import Verif.Proofs.Incidence
import Verif.Props.Components
/-!
# Recursive assembly plans (C49)

`decompose` iterates over hash sets, so its plan depends on their iteration order. All theorems hold for every order (`HashOrder`).
-/
namespace Fiksi

open Spec

variable {F : Type}

/-- The call of `decompose` for one component of a system, `assemble/mod.rs:213-218`. -/
def System.recursivePlan (s : System F) (ord : HashOrder) (comp : Component) : R (List RecombinationStep) :=
  decompose 3 ord s.graph.toD comp.elements comp.constraints

theorem Graph.toD_constraint {g : Graph} {e : Nat} {c : DConstraint} (h : g.toD.constraints[e]? = some c) :
    g.incidents[e]? = some c.incidentElements := by
  simp only [Graph.toD, List.getElem?_map, Option.map_eq_some_iff] at h
  obtain ⟨c', h1, rfl⟩ := h
  simp [Graph.incidents, h1]

theorem Graph.toD_element {g : Graph} {v : Nat} {el : DElement} (h : g.toD.elements[v]? = some el) :
    ∃ el', g.elements[v]? = some el' ∧ el.incidentConstraints = el'.incidentConstraints := by
  simp only [Graph.toD, List.getElem?_map, Option.map_eq_some_iff] at h
  obtain ⟨c', h1, rfl⟩ := h
  exact ⟨c', h1, rfl⟩

theorem Reaches.decomposeOk {counter : Nat} {ops : List (Op F)} {c : Client F} (h : Reaches counter ops c)
    {comp : Component} (hcomp : comp ∈ c.sys.graph.components) :
    DCtx.Ok ⟨c.sys.graph.toD, comp.elements, comp.constraints⟩ := by
  have hc := h.comp.1
  obtain ⟨k, hk⟩ := List.mem_iff_getElem?.1 hcomp
  have hk := compAt_of hk
  refine ⟨⟨fun v el hel e he => ?_⟩, fun v hv => ?_, fun e he => ?_⟩
  · obtain ⟨el', h1, h2⟩ := Graph.toD_element hel
    obtain ⟨inc, h3, -⟩ := (h.incidence v e).1 ⟨el', h1, h2 ▸ he⟩
    have := lt_of_getElem? h3
    simpa [Graph.incidents, Graph.toD] using this
  · obtain ⟨inc, h1, h2⟩ := hc.elemConstrained k v (by rw [hk]; exact hv)
    obtain ⟨e, h3⟩ := List.mem_iff_getElem?.1 h1
    obtain ⟨el, h4, -⟩ := (h.incidence v e).2 ⟨inc, h3, h2⟩
    have := lt_of_getElem? h4
    simpa [DCtx.nE, Graph.toD] using this
  · have := hc.consLt k e (by rw [hk]; exact he)
    simpa [DCtx.nC, Graph.toD] using this

/-- C49: for every component of every reachable system and every iteration order, a returned plan solves each constraint of the
component in exactly one step, and no other constraint. -/
theorem C49_constraints_once {counter : Nat} {ops : List (Op F)} {c : Client F} (h : Reaches counter ops c)
    {comp : Component} (hcomp : comp ∈ c.sys.graph.components) {ord : HashOrder} (hord : ord.Ok) {steps : List RecombinationStep}
    (hs : c.sys.recursivePlan ord comp = .ok steps) :
    (steps.flatMap RecombinationStep.constraints).Nodup ∧
      ∀ e, e ∈ steps.flatMap RecombinationStep.constraints ↔ e ∈ comp.constraints := by
  have hp := decompose_plan (h.decomposeOk hcomp) hord hs
  exact ⟨hp.nodup, hp.mem⟩

/-- C49 (partial): a step only names elements of the component, each once, it only frees elements it names, and no element is freed
by two steps. (Full statement: each element is freed by exactly one step; false, see `C49_elements_unowned`.) -/
theorem C49_elements_at_most_once_partial {counter : Nat} {ops : List (Op F)} {c : Client F} (h : Reaches counter ops c)
    {comp : Component} (hcomp : comp ∈ c.sys.graph.components) {ord : HashOrder} (hord : ord.Ok) {steps : List RecombinationStep}
    (hs : c.sys.recursivePlan ord comp = .ok steps) :
    (steps.flatMap RecombinationStep.freeElements).Nodup ∧
      ∀ s ∈ steps, s.elements.Nodup ∧ s.constraints ≠ [] ∧ (∀ v ∈ s.elements, v ∈ comp.elements) ∧
        ∀ v ∈ s.freeElements, v ∈ s.elements := by
  have hp := decompose_plan (h.decomposeOk hcomp) hord hs
  exact ⟨hp.free, fun s hsm => ⟨(hp.ok s hsm).nodup, (hp.ok s hsm).nonempty, (hp.ok s hsm).elems, (hp.ok s hsm).free⟩⟩

/-- C49 (partial): when the components are right (no constraint of the history joins two constrained parts, see C17), the elements
of each step include all arguments of the constraints it solves. (Full statement: for every history; false, see
`C49_missing_argument`.) -/
theorem C49_step_has_arguments_partial {counter : Nat} {ops : List (Op F)} {c : Client F} (h : Reaches counter ops c)
    (hn : NeverJoins ((Store.empty F).run ops).arguments)
    {comp : Component} (hcomp : comp ∈ c.sys.graph.components) {ord : HashOrder} (hord : ord.Ok) {steps : List RecombinationStep}
    (hs : c.sys.recursivePlan ord comp = .ok steps) :
    ∀ s ∈ steps, ∀ n ∈ s.constraints, ∀ con, ((Store.empty F).run ops).cons[n]? = some con →
      ∀ i ∈ ((Store.empty F).run ops).actsOn con, i ∈ s.elements := by
  have hp := decompose_plan (h.decomposeOk hcomp) hord hs
  have hfull := (C17_linked_together_partial h hn hcomp).2
  have hclosed : DCtx.Closed ⟨c.sys.graph.toD, comp.elements, comp.constraints⟩ := by
    intro e he c' hc' v hv
    have h1 := Graph.toD_constraint hc'
    have h2 : ((Store.empty F).run ops).arguments[e]? = some c'.incidentElements := by rw [← h.incidents]; exact h1
    rw [Spec.Store.arguments, List.getElem?_map, Option.map_eq_some_iff] at h2
    obtain ⟨con, h3, h4⟩ := h2
    refine ⟨hfull e he con h3 v (by rw [h4]; exact hv), ?_⟩
    obtain ⟨el, h5, h6⟩ := (h.incidence v e).2 ⟨_, h1, hv⟩
    exact ⟨⟨el.dof, el.incidentConstraints⟩, by simp [Graph.toD, h5], h6⟩
  intro s hsm n hn' con hcon i hi
  have h1 : c.sys.graph.incidents[n]? = some (((Store.empty F).run ops).actsOn con) := by
    rw [h.incidents, Spec.Store.arguments, List.getElem?_map, hcon]; rfl
  simp only [Graph.incidents, List.getElem?_map, Option.map_eq_some_iff] at h1
  obtain ⟨gc, h2, h3⟩ := h1
  exact (hp.ok s hsm).closed hclosed n hn' ⟨gc.valency, gc.incidentElements⟩ (by simp [Graph.toD, h2]) i (by rw [h3]; exact hi)

/-- C49: the search for a plan ends for every component of every reachable system and every iteration order. -/
theorem C49_terminates {counter : Nat} {ops : List (Op F)} {c : Client F} (h : Reaches counter ops c)
    {comp : Component} (hcomp : comp ∈ c.sys.graph.components) {ord : HashOrder} (hord : ord.Ok) :
    c.sys.recursivePlan ord comp ≠ .error .outOfFuel :=
  decompose_terminates (h.decomposeOk hcomp) hord

/-! ## Witnesses -/

/-- An iteration order. -/
def ascendingOrder : HashOrder := fun _ => ascending

theorem ascendingOrder_ok : ascendingOrder.Ok := fun _ s => ⟨ascending_nodup s, fun x => mem_ascending s x⟩

/-- The constraints, elements and freed elements of the steps of a plan. -/
def stepLists (steps : List RecombinationStep) : List (List Nat × List Nat × List Nat) :=
  steps.map (fun s => (s.constraints, s.elements, s.freeElements))

/-- The plans of all components. -/
def recursivePlans (ops : List (Op Int)) : R (List (R (List RecombinationStep))) := do
  let c ← (Client.new Int 0).run ops
  pure (c.sys.graph.components.map (c.sys.recursivePlan ascendingOrder))

/-- Case: a triangle of distances. Three steps; the last one frees no element. -/
example : okAnd (recursivePlans [.createPoint 0 0, .createPoint 1 0, .createPoint 0 1, .createCon (.pointPointDistance 0 1 1),
    .createCon (.pointPointDistance 1 2 1), .createCon (.pointPointDistance 2 0 1)])
    (fun l => l.map (fun r => okAnd r (fun s => stepLists s = [([0], [0, 1], [0, 1]), ([2], [0, 2], [2]), ([1], [1, 2], [])]))
      == [true]) = true := by
  decide +kernel

/-- Four points and the four sides of a square as distances. -/
def squareOps : List (Op Int) :=
  [.createPoint 0 0, .createPoint 1 0, .createPoint 1 1, .createPoint 0 1,
   .createCon (.pointPointDistance 0 1 1), .createCon (.pointPointDistance 1 2 1), .createCon (.pointPointDistance 2 3 1),
   .createCon (.pointPointDistance 3 0 1)]

/-- `x` panics on an `unwrap`. -/
def isUnwrap {α : Type} (x : R α) : Bool :=
  match x with
  | .error .unwrapNone => true
  | _ => false

theorem isUnwrap_iff {α : Type} {x : R α} : isUnwrap x = true ↔ x = .error .unwrapNone := by
  constructor
  · intro h
    unfold isUnwrap at h
    split at h
    · rfl
    · cases h
  · rintro rfl; rfl

/-- `decompose` can panic. In the square of distances, single points become the core of a cluster and stay in the graph while their
entry in `on_frontiers` is removed; when an older cluster that lists such a point on its frontier is merged,
`position(..).unwrap()` (`recursive_assembly.rs:374-378`) fails. -/
theorem C49_square_panics : ∃ c, Reaches 0 squareOps c ∧ ∃ comp, c.sys.graph.components = [comp] ∧
    ∃ ord, HashOrder.Ok ord ∧ c.sys.recursivePlan ord comp = .error .unwrapNone := by
  have hl : (Store.empty Int).LegalRun squareOps := by
    simp [squareOps, Store.LegalRun, Store.Legal, Store.empty, Store.step, Store.IsPoint, Store.ConOk]
  obtain ⟨c, h1, -, -⟩ := (CRel.new (F := Int) 0).run squareOps (by simp [Store.empty, squareOps]) (by simp [Store.empty, squareOps]) hl
  refine ⟨c, ⟨by simp [squareOps], hl, h1⟩, ?_⟩
  have h2 : okAnd ((Client.new Int 0).run squareOps) (fun c => match c.sys.graph.components with
      | [comp] => isUnwrap (c.sys.recursivePlan ascendingOrder comp)
      | _ => false) = true := by decide +kernel
  rw [h1] at h2
  simp only [okAnd] at h2
  split at h2
  · rename_i comp hcomp
    exact ⟨comp, hcomp, ascendingOrder, ascendingOrder_ok, isUnwrap_iff.1 h2⟩
  · cases h2

/-- Four points and two angles with two common points. -/
def anglesOps : List (Op Int) :=
  [.createPoint 0 0, .createPoint 1 0, .createPoint 1 1, .createPoint 0 1,
   .createCon (.pointPointPointAngle 0 1 2 1), .createCon (.pointPointPointAngle 1 2 3 1)]

theorem legal_of_points {ops : List (Op Int)} (hl : (Store.empty Int).LegalRun ops) (hs : ops.length < 2 ^ 30) :
    ∃ c, Reaches 0 ops c := by
  obtain ⟨c, h1, -, -⟩ := (CRel.new (F := Int) 0).run ops (by simp [Store.empty]; omega) (by simp [Store.empty]; omega) hl
  exact ⟨c, hs, hl, h1⟩

/-- The claim about elements is false: subgraphs without a constraint of their own claim elements without emitting a step, so no
step of this plan frees any of the four elements. -/
theorem C49_elements_unowned : ∃ c, Reaches 0 anglesOps c ∧ ∃ comp, c.sys.graph.components = [comp] ∧
    comp.elements = {0, 1, 2, 3} ∧ ∃ ord, HashOrder.Ok ord ∧ ∃ steps, c.sys.recursivePlan ord comp = .ok steps ∧
    stepLists steps = [([0], [0, 1, 2], []), ([1], [1, 2, 3], [])] := by
  have hl : (Store.empty Int).LegalRun anglesOps := by
    simp [anglesOps, Store.LegalRun, Store.Legal, Store.empty, Store.step, Store.IsPoint, Store.ConOk]
  obtain ⟨c, h⟩ := legal_of_points hl (by simp [anglesOps])
  refine ⟨c, h, ?_⟩
  have h2 : okAnd ((Client.new Int 0).run anglesOps) (fun c => match c.sys.graph.components with
      | [comp] => decide (comp.elements = {0, 1, 2, 3}) && okAnd (c.sys.recursivePlan ascendingOrder comp)
          (fun s => stepLists s = [([0], [0, 1, 2], []), ([1], [1, 2, 3], [])])
      | _ => false) = true := by decide +kernel
  rw [h.run] at h2
  simp only [okAnd] at h2
  split at h2
  · rename_i comp hcomp
    rw [Bool.and_eq_true] at h2
    obtain ⟨h2, h3⟩ := h2
    refine ⟨comp, hcomp, of_decide_eq_true h2, ascendingOrder, ascendingOrder_ok, ?_⟩
    split at h3
    · rename_i s hs
      exact ⟨s, hs, of_decide_eq_true h3⟩
    · cases h3
  · cases h2

/-- When a joining constraint has broken the components (C17), the plan has a step that lacks an argument of its constraint:
here constraint 3 between points 3 and 4 is solved in a step that only knows point 4. -/
theorem C49_missing_argument : ∃ c, Reaches 0 splitOps c ∧ ∃ comp ∈ c.sys.graph.components, ∃ ord, HashOrder.Ok ord ∧
    ∃ steps, c.sys.recursivePlan ord comp = .ok steps ∧ stepLists steps = [([3], [4], [4])] := by
  obtain ⟨c, h, hcomp, -⟩ := C17_linked_elements_separated
  refine ⟨c, h, ⟨{4}, {3}⟩, by rw [hcomp]; simp, ascendingOrder, ascendingOrder_ok, ?_⟩
  have h2 : okAnd ((Client.new Int 0).run splitOps) (fun c => okAnd (c.sys.recursivePlan ascendingOrder ⟨{4}, {3}⟩)
      (fun s => stepLists s = [([3], [4], [4])])) = true := by decide +kernel
  rw [h.run] at h2
  simp only [okAnd] at h2
  split at h2
  · rename_i s hs
    exact ⟨s, hs, of_decide_eq_true h2⟩
  · cases h2

end Fiksi
