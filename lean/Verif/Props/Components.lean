import Verif.Proofs.Components
import Verif.Props.Api
/-!
# Connected components (C17)
-/
namespace Fiksi

open Spec (Constrained Linked NeverJoins Op Store Con)

variable {F : Type}

/-- The points and lengths used by each constraint, as the user sees it. -/
def Spec.Store.arguments (st : Store F) : List (List Nat) := st.cons.map st.actsOn

theorem Reaches.incidents {counter : Nat} {ops : List (Op F)} {c : Client F} (h : Reaches counter ops c) :
    c.sys.graph.incidents = ((Store.empty F).run ops).arguments := by
  rw [Graph.incidents, h.crel.rel.graphCons, List.map_map]
  rfl

theorem compAt_of {comps : List Component} {k : Nat} {comp : Component} (h : comps[k]? = some comp) : compAt comps k = comp := by
  simp [compAt, h]

theorem mem_compAt {comps : List Component} {k i : Nat} (h : i ∈ (compAt comps k).elements) :
    ∃ comp, comps[k]? = some comp ∧ i ∈ comp.elements := by
  rw [compAt] at h
  cases hk : comps[k]? with
  | none => rw [hk] at h; simp [Component.empty] at h
  | some comp => rw [hk] at h; exact ⟨comp, rfl, h⟩

theorem mem_compAt' {comps : List Component} {k i : Nat} (h : i ∈ (compAt comps k).constraints) :
    ∃ comp, comps[k]? = some comp ∧ i ∈ comp.constraints := by
  rw [compAt] at h
  cases hk : comps[k]? with
  | none => rw [hk] at h; simp [Component.empty] at h
  | some comp => rw [hk] at h; exact ⟨comp, rfl, h⟩

/-- C17: after any history every constraint is in exactly one component. -/
theorem C17_constraints_partitioned {counter : Nat} {ops : List (Op F)} {c : Client F} (h : Reaches counter ops c) :
    ∀ i < ((Store.empty F).run ops).cons.length,
      ∃! k : Nat, ∃ comp : Component, c.sys.graph.components[k]? = some comp ∧ i ∈ comp.constraints := by
  intro i hi
  obtain ⟨hc, -⟩ := h.comp
  have hl : c.sys.graph.constraints.length = ((Store.empty F).run ops).cons.length := h.crel.rel.graph.constraints
  obtain ⟨k, hk⟩ := hc.consCover i (by omega)
  refine ⟨k, mem_compAt' hk, ?_⟩
  rintro k' ⟨comp, h1, h2⟩
  exact hc.consUnique k' k i (by rw [compAt_of h1]; exact h2) hk

/-- C17: after any history the points and lengths in the components are exactly the constrained ones, each in exactly one
component. -/
theorem C17_elements_partitioned {counter : Nat} {ops : List (Op F)} {c : Client F} (h : Reaches counter ops c) (i : Nat) :
    (Constrained ((Store.empty F).run ops).arguments i → ∃! k : Nat, ∃ comp : Component, c.sys.graph.components[k]? = some comp ∧ i ∈ comp.elements) ∧
      ((∃ comp ∈ c.sys.graph.components, i ∈ comp.elements) → Constrained ((Store.empty F).run ops).arguments i) := by
  obtain ⟨hc, -⟩ := h.comp
  rw [← h.incidents]
  constructor
  · intro hi
    obtain ⟨k, hk⟩ := hc.elemCover i hi
    refine ⟨k, mem_compAt hk, ?_⟩
    rintro k' ⟨comp, h1, h2⟩
    exact hc.elemUnique k' k i (by rw [compAt_of h1]; exact h2) hk
  · rintro ⟨comp, h1, h2⟩
    obtain ⟨k, hk⟩ := List.mem_iff_getElem?.1 h1
    exact hc.elemConstrained k i (by rw [compAt_of hk]; exact h2)

/-- C17: elements of one component are linked by chains of constraints, and so are the arguments of its constraints: unlinked
elements are never solved together. -/
theorem C17_component_linked {counter : Nat} {ops : List (Op F)} {c : Client F} (h : Reaches counter ops c)
    {comp : Component} (hcomp : comp ∈ c.sys.graph.components) {i j : Nat}
    (hi : i ∈ comp.elements ∨ ∃ n ∈ comp.constraints, ∃ con, ((Store.empty F).run ops).cons[n]? = some con ∧
      i ∈ ((Store.empty F).run ops).actsOn con)
    (hj : j ∈ comp.elements ∨ ∃ n ∈ comp.constraints, ∃ con, ((Store.empty F).run ops).cons[n]? = some con ∧
      j ∈ ((Store.empty F).run ops).actsOn con) :
    Linked ((Store.empty F).run ops).arguments i j := by
  obtain ⟨hc, -⟩ := h.comp
  rw [← h.incidents]
  obtain ⟨k, hk⟩ := List.mem_iff_getElem?.1 hcomp
  have key : ∀ i, (i ∈ comp.elements ∨ ∃ n ∈ comp.constraints, ∃ con, ((Store.empty F).run ops).cons[n]? = some con ∧
      i ∈ ((Store.empty F).run ops).actsOn con) → c.sys.graph.Member k i := by
    rintro i (h1 | ⟨n, h1, con, h2, h3⟩)
    · exact .inl (by rw [compAt_of hk]; exact h1)
    · refine .inr ⟨n, _, by rw [compAt_of hk]; exact h1, ?_, h3⟩
      rw [h.incidents, Spec.Store.arguments, List.getElem?_map, h2]
      rfl
  exact hc.linked k i j (key i hi) (key j hj)

/-- C17 (partial): if no constraint of the history joins two previously separate constrained parts, then linked elements are in the
same component and a constraint's component contains its arguments; with the other three theorems, the components are exactly the
connected components. (Full statement: without the restriction; false, see `C17_joined_parts_fall_apart`.) -/
theorem C17_linked_together_partial {counter : Nat} {ops : List (Op F)} {c : Client F} (h : Reaches counter ops c)
    (hn : NeverJoins ((Store.empty F).run ops).arguments) {comp : Component} (hcomp : comp ∈ c.sys.graph.components) :
    (∀ i j, i ∈ comp.elements → Linked ((Store.empty F).run ops).arguments i j → j ∈ comp.elements) ∧
      ∀ n ∈ comp.constraints, ∀ con, ((Store.empty F).run ops).cons[n]? = some con →
        ∀ i ∈ ((Store.empty F).run ops).actsOn con, i ∈ comp.elements := by
  obtain ⟨hc, hf⟩ := h.comp
  rw [← h.incidents] at hn ⊢
  have hf := hf hn
  obtain ⟨k, hk⟩ := List.mem_iff_getElem?.1 hcomp
  rw [← compAt_of hk]
  refine ⟨fun i j hi hl => hf.linked hc hi hl, ?_⟩
  intro n hn con hcon i hi
  refine hf.contains k n _ hn ?_ i hi
  rw [h.incidents, Spec.Store.arguments, List.getElem?_map, hcon]
  rfl

theorem components_of_pairs {l : List Component} {m : List (Finset Nat × Finset Nat)}
    (h : l.map (fun k => (k.elements, k.constraints)) = m) : l = m.map (fun p => ⟨p.1, p.2⟩) := by
  subst h
  rw [List.map_map]
  exact (List.map_id l).symm

/-- `x` succeeds with a value satisfying `p`. -/
def okAnd {α : Type} (x : R α) (p : α → Bool) : Bool :=
  match x with
  | .ok a => p a
  | .error _ => false

/-- Six points; distances `ab`, `cd`, `ef`, then `bc` and `be` (which join the three parts) and `df`. -/
def joinOps : List (Op Int) :=
  [.createPoint 0 0, .createPoint 1 0, .createPoint 2 0, .createPoint 3 0, .createPoint 4 0, .createPoint 5 0,
   .createCon (.pointPointDistance 0 1 1), .createCon (.pointPointDistance 2 3 1), .createCon (.pointPointDistance 4 5 1),
   .createCon (.pointPointDistance 1 2 1), .createCon (.pointPointDistance 1 4 1), .createCon (.pointPointDistance 3 5 1)]

/-- C17 is false in general. When a constraint joins two parts, the elements of the smaller part that are not arguments of the
constraint keep their old component number; later constraints on them do not reach the joined component. Here the last
constraint, between points 3 and 5, gets a component of its own, without any element, although both points are in the first
component. (`solve` skips components without elements, `assemble/mod.rs:87-89`, see C22.) -/
theorem C17_joined_parts_fall_apart : ∃ c, Reaches 0 joinOps c ∧
    c.sys.graph.components = [⟨{0, 1, 2, 3, 4, 5}, {0, 1, 2, 3, 4}⟩, ⟨∅, ∅⟩, ⟨∅, ∅⟩, ⟨∅, {5}⟩] := by
  have hl : (Store.empty Int).LegalRun joinOps := by
    simp [joinOps, Store.LegalRun, Store.Legal, Store.empty, Store.step, Store.IsPoint, Store.ConOk]
  obtain ⟨c, h1, -, -⟩ := (CRel.new (F := Int) 0).run joinOps (by simp [Store.empty, joinOps]) (by simp [Store.empty, joinOps]) hl
  refine ⟨c, ⟨by simp [joinOps], hl, h1⟩, ?_⟩
  have h2 : okAnd ((Client.new Int 0).run joinOps) (fun c => c.sys.graph.components.map (fun k => (k.elements, k.constraints)) =
      [({0, 1, 2, 3, 4, 5}, {0, 1, 2, 3, 4}), (∅, ∅), (∅, ∅), (∅, {5})]) = true := by decide +kernel
  rw [h1] at h2
  exact components_of_pairs (of_decide_eq_true h2)

/-- Five points; distances `ab`, `cd`, `bc` (which joins the two parts) and `de`. -/
def splitOps : List (Op Int) :=
  [.createPoint 0 0, .createPoint 1 0, .createPoint 2 0, .createPoint 3 0, .createPoint 4 0,
   .createCon (.pointPointDistance 0 1 1), .createCon (.pointPointDistance 2 3 1),
   .createCon (.pointPointDistance 1 2 1), .createCon (.pointPointDistance 3 4 1)]

/-- A second consequence: elements linked by constraints end up in different components, and a component lacks an argument of its
constraint. -/
theorem C17_linked_elements_separated : ∃ c, Reaches 0 splitOps c ∧
    c.sys.graph.components = [⟨{0, 1, 2, 3}, {0, 1, 2}⟩, ⟨∅, ∅⟩, ⟨{4}, {3}⟩] ∧
    Linked ((Store.empty Int).run splitOps).arguments 0 4 := by
  have hl : (Store.empty Int).LegalRun splitOps := by
    simp [splitOps, Store.LegalRun, Store.Legal, Store.empty, Store.step, Store.IsPoint, Store.ConOk]
  obtain ⟨c, h1, -, -⟩ := (CRel.new (F := Int) 0).run splitOps (by simp [Store.empty, splitOps]) (by simp [Store.empty, splitOps]) hl
  refine ⟨c, ⟨by simp [splitOps], hl, h1⟩, ?_, ?_⟩
  · have h2 : okAnd ((Client.new Int 0).run splitOps) (fun c => c.sys.graph.components.map (fun k => (k.elements, k.constraints)) =
        [({0, 1, 2, 3}, {0, 1, 2}), (∅, ∅), ({4}, {3})]) = true := by decide +kernel
    rw [h1] at h2
    exact components_of_pairs (of_decide_eq_true h2)
  · have ha : ((Store.empty Int).run splitOps).arguments = [[0, 1], [2, 3], [1, 2], [3, 4]] := rfl
    rw [ha]
    have m : ∀ {i j : Nat} (c : List Nat), c ∈ [[0, 1], [2, 3], [1, 2], [3, 4]] → i ∈ c → j ∈ c →
      Linked [[0, 1], [2, 3], [1, 2], [3, 4]] i j := fun c h hi hj => Linked.of_mem h hi hj
    exact (m (j := 1) [0, 1] (by simp) (by simp) (by simp)).trans <| (m (j := 2) [1, 2] (by simp) (by simp) (by simp)).trans <|
      (m (j := 3) [2, 3] (by simp) (by simp) (by simp)).trans (m [3, 4] (by simp) (by simp) (by simp))

/-- Non-vacuity of the partial theorem: a chain of distances grown from one end never joins parts. -/
example : NeverJoins [[0, 1], [1, 2], [2, 3], [0, 3]] := by
  intro m c hc i hi j hj h1 h2
  have m' : ∀ {i j : Nat} (l : List (List Nat)) (c : List Nat), c ∈ l → i ∈ c → j ∈ c → Linked l i j :=
    fun _ _ h hi hj => Linked.of_mem h hi hj
  have e1 : ∀ l : List (List Nat), [0, 1] ∈ l → [1, 2] ∈ l → [2, 3] ∈ l → Linked l 0 3 := fun l a b d =>
    (m' (j := 1) l _ a (by simp) (by simp)).trans ((m' (j := 2) l _ b (by simp) (by simp)).trans (m' l _ d (by simp) (by simp)))
  rcases m with _ | _ | _ | _ | m
  · obtain ⟨d, hd, -⟩ := h1; simp at hd
  · simp only [List.getElem?_cons_succ, List.getElem?_cons_zero, Option.some.injEq] at hc
    subst hc
    obtain ⟨d, hd, hi'⟩ := h1; obtain ⟨d', hd', hj'⟩ := h2
    simp only [List.take_succ_cons, List.take_zero, List.mem_singleton] at hd hd'
    subst hd; subst hd'
    exact m' _ _ (by simp) hi' hj'
  · simp only [List.getElem?_cons_succ, List.getElem?_cons_zero, Option.some.injEq] at hc
    subst hc
    simp only [List.mem_cons, List.not_mem_nil, or_false] at hi hj
    have no3 : ¬ Constrained ([[0, 1], [1, 2], [2, 3], [0, 3]].take 2) 3 := by
      rintro ⟨d, hd, h3⟩
      simp only [List.take_succ_cons, List.take_zero, List.mem_cons, List.not_mem_nil, or_false] at hd
      rcases hd with rfl | rfl <;> simp at h3
    rcases hi with rfl | rfl
    · rcases hj with rfl | rfl
      · exact Linked.refl _ _
      · exact absurd h2 no3
    · exact absurd h1 no3
  · simp only [List.getElem?_cons_succ, List.getElem?_cons_zero, Option.some.injEq] at hc
    subst hc
    simp only [List.mem_cons, List.not_mem_nil, or_false] at hi hj
    rcases hi with rfl | rfl <;> rcases hj with rfl | rfl
    · exact Linked.refl _ _
    · exact e1 _ (by simp) (by simp) (by simp)
    · exact (e1 _ (by simp) (by simp) (by simp)).symm
    · exact Linked.refl _ _
  · simp at hc

end Fiksi
