import Verif.Proofs.DenseExact
import Verif.Proofs.IncidenceCount
import Verif.Props.Decompose
/-!
# Dense subgraphs (C65)

`dense_bfs` looks for a smallest connected set of at least two elements that was not handled yet. The documented condition on its
degrees of freedom is not the one in the code.
-/
namespace Fiksi

open Spec Finset

variable {F : Type}

/-- C65 (partial: with the condition of the code; the documented one is missing, see `C65_sparse_found`): on a consistent graph, for every iteration order, the search ends without a panic. It returns a smallest candidate (a
connected set of at least two of the vertices that is not blocked and has more than `k` degrees of freedom left), or `None` if and
only if there is no candidate. -/
theorem C65_dense_minimum_partial {env : DenseEnv} (hr : env.graph.InRange) (hc : Consistent env.graph env.vertices env.available)
    {ord : HashOrder} (hord : ord.Ok) (step : Nat) :
    ∃ r, env.denseBfs ord step = .ok r ∧ (∀ S, r = some S → Candidate env S ∧ ∀ S', Candidate env S' → S.card ≤ S'.card) ∧
      (r = none ↔ ∀ S', ¬ Candidate env S') := by
  have hok : env.Ok := ⟨hr, fun v hv => by obtain ⟨el, hel, -⟩ := hc.vertex v hv; exact lt_of_getElem? hel⟩
  obtain ⟨r, h1, -⟩ := hok.denseBfs hord step
  obtain ⟨h2, h3⟩ := denseBfs_minimum hc hord h1
  refine ⟨r, h1, h2, h3, fun hn => ?_⟩
  cases r with
  | none => rfl
  | some S => exact absurd (h2 S rfl).1 (hn S)

/-- The arguments of a constraint are at least two different elements, none repeated. -/
def Spec.Store.ProperArguments (st : Store F) (con : Spec.Con F) : Prop := (st.actsOn con).Nodup ∧ 2 ≤ (st.actsOn con).length

/-- The first search of `decompose::<3>` for a component. -/
def System.firstSearch (s : System F) (comp : Component) : DenseEnv := ⟨s.graph.toD, [], comp.constraints, comp.elements, -(3 + 1)⟩

/-- The graph of a reachable system is consistent where the constraints have different arguments. -/
theorem Reaches.graphConsistent {counter : Nat} {ops : List (Op F)} {c : Client F} (h : Reaches counter ops c) {comp : Component}
    (hcomp : comp ∈ c.sys.graph.components)
    (hp : ∀ e ∈ comp.constraints, ∀ con, ((Store.empty F).run ops).cons[e]? = some con → ((Store.empty F).run ops).ProperArguments con) :
    Consistent c.sys.graph.toD comp.elements comp.constraints := by
  have hok := h.decomposeOk hcomp
  have hends : ∀ e ∈ comp.constraints, ∃ inc, c.sys.graph.incidents[e]? = some inc ∧ endsOf c.sys.graph.toD e = inc ∧ inc.Nodup ∧
      2 ≤ inc.length := by
    intro e he
    have hlt := hok.edges e he
    obtain ⟨dc, hdc⟩ := getElem?_exists (l := c.sys.graph.toD.constraints) (i := e) hlt
    have h1 := Graph.toD_constraint hdc
    have h2 : ((Store.empty F).run ops).arguments[e]? = some dc.incidentElements := by rw [← h.incidents]; exact h1
    rw [Spec.Store.arguments, List.getElem?_map, Option.map_eq_some_iff] at h2
    obtain ⟨con, h3, h4⟩ := h2
    have := hp e he con h3
    rw [Spec.Store.ProperArguments, h4] at this
    exact ⟨_, h1, endsOf_of hdc, this.1, this.2⟩
  refine ⟨fun e he => ?_, fun v hv => ?_⟩
  · obtain ⟨inc, h1, h2, h3, h4⟩ := hends e he
    exact ⟨hok.edges e he, by rw [h2, List.toFinset_card_of_nodup h3]; exact h4⟩
  · obtain ⟨el, hel⟩ := getElem?_exists (l := c.sys.graph.toD.elements) (i := v) (hok.verts v hv)
    obtain ⟨el', h1, h2⟩ := Graph.toD_element hel
    refine ⟨el, hel, fun e he => ?_, fun e he => ?_⟩
    · obtain ⟨inc, h3, h4, h5, -⟩ := hends e he
      rw [h2, h.counts v e el' inc h1 h3]
      exact List.nodup_iff_count_le_one.1 h5 v
    · obtain ⟨inc, h3, h4, h5, -⟩ := hends e he
      rw [h4, h2]
      constructor
      · intro hm
        obtain ⟨inc', h6, h7⟩ := (h.incidence v e).1 ⟨el', h1, hm⟩
        rw [h3] at h6
        cases h6
        exact h7
      · intro hm
        obtain ⟨el'', h6, h7⟩ := (h.incidence v e).2 ⟨inc, h3, hm⟩
        rw [h1] at h6
        cases h6
        exact h7

/-- C65 (partial, as above) for the API: the first search for any component of any reachable system whose constraints have different arguments. -/
theorem C65_first_search_partial {counter : Nat} {ops : List (Op F)} {c : Client F} (h : Reaches counter ops c) {comp : Component}
    (hcomp : comp ∈ c.sys.graph.components)
    (hp : ∀ e ∈ comp.constraints, ∀ con, ((Store.empty F).run ops).cons[e]? = some con → ((Store.empty F).run ops).ProperArguments con)
    {ord : HashOrder} (hord : ord.Ok) (step : Nat) :
    ∃ r, (c.sys.firstSearch comp).denseBfs ord step = .ok r ∧
      (∀ S, r = some S → Candidate (c.sys.firstSearch comp) S ∧ ∀ S', Candidate (c.sys.firstSearch comp) S' → S.card ≤ S'.card) ∧
      (r = none ↔ ∀ S', ¬ Candidate (c.sys.firstSearch comp) S') :=
  C65_dense_minimum_partial (h.decomposeOk hcomp).range (h.graphConsistent hcomp hp) hord step

/-- C65: while an edge between two elements that is not blocked is left and the two are not constrained eightfold, the search
returns a pair. -/
theorem C65_pairs_first {env : DenseEnv} (hr : env.graph.InRange) (hc : Consistent env.graph env.vertices env.available)
    {ord : HashOrder} (hord : ord.Ok) (step : Nat) {u v : Nat} (hu : u ∈ env.vertices) (hv : v ∈ env.vertices) (huv : u ≠ v)
    (hj : JoinedBy env.graph env.available u v) (hb : {u, v} ∉ env.blocked)
    (hf : env.k < freedom env.graph env.available {u, v}) :
    ∃ S, env.denseBfs ord step = .ok (some S) ∧ Candidate env S ∧ S.card = 2 := by
  obtain ⟨r, h1, h2, h3⟩ := C65_dense_minimum_partial hr hc hord step
  have hg : Grown env {u, v} := by
    have : Grown env (insert u {v}) := .more (.one hv) hu (by simpa using huv) ⟨v, by simp, hj.symm⟩
    exact this
  have hcand : Candidate env {u, v} := ⟨hg.sub, hg.connected, by rw [card_pair huv], hb, hf⟩
  cases r with
  | none => exact absurd hcand (h3.1 rfl _)
  | some S =>
    obtain ⟨h4, h5⟩ := h2 S rfl
    have h6 := h5 _ hcand
    rw [card_pair huv] at h6
    exact ⟨S, h1, h4, le_antisymm h6 h4.size⟩

/-! ## The documented condition -/

/-- The documented condition (`recursive_assembly.rs:487-491`) on a non-trivial subgraph. -/
structure Spec.Documented (g : DGraph) (vertices edges : Finset Nat) (d : Int) (S : Finset Nat) : Prop where
  vertices : S ⊆ vertices
  connected : ConnectedSet g edges S
  size : 2 ≤ S.card
  dense : freedom g edges S < d + 1

/-- Two parallel lines. -/
def parallelOps : List (Op Int) :=
  [.createPoint 0 0, .createPoint 1 0, .createPoint 0 1, .createPoint 2 3, .createLine 0 1, .createLine 2 3,
   .createCon (.lineLineParallelism 4 5)]

/-- Two points with eight distances. -/
def eightfoldOps : List (Op Int) :=
  [.createPoint 0 0, .createPoint 1 0] ++ List.replicate 8 (.createCon (.pointPointDistance 0 1 1))

deriving instance DecidableEq for DElement, DConstraint, DGraph

theorem component_of_run {ops : List (Op Int)} {c : Client Int} (h : Reaches 0 ops c) {g : DGraph} {V E : Finset Nat}
    (hr : okAnd ((Client.new Int 0).run ops) (fun c => decide (c.sys.graph.toD = g) &&
      decide (c.sys.graph.components.map (fun k => (k.elements, k.constraints)) = [(V, E)])) = true) :
    c.sys.graph.toD = g ∧ c.sys.graph.components = [⟨V, E⟩] := by
  rw [h.run] at hr
  simp only [okAnd, Bool.and_eq_true, decide_eq_true_eq] at hr
  exact ⟨hr.1, components_of_pairs hr.2⟩

/-- The graph of `parallelOps`. -/
def parallelGraph : DGraph := ⟨[⟨2, [0]⟩, ⟨2, [0]⟩, ⟨2, [0]⟩, ⟨2, [0]⟩, ⟨0, []⟩, ⟨0, []⟩], [⟨1, [0, 1, 2, 3]⟩]⟩

/-- The graph of `eightfoldOps`. -/
def eightfoldGraph : DGraph := ⟨[⟨2, List.range 8⟩, ⟨2, List.range 8⟩], List.replicate 8 ⟨1, [0, 1]⟩⟩

theorem parallel_reaches : ∃ c, Reaches 0 parallelOps c ∧ c.sys.graph.toD = parallelGraph ∧
    c.sys.graph.components = [⟨{0, 1, 2, 3}, {0}⟩] := by
  obtain ⟨c, h⟩ := exists_reaches 0 parallelOps (by
    simp [parallelOps, Store.LegalRun, Store.Legal, Store.empty, Store.step, Store.IsPoint, Store.IsLine, Store.ConOk, Elem.kind]) (by simp [parallelOps])
  exact ⟨c, h, component_of_run h (by decide +kernel)⟩

theorem eightfold_reaches : ∃ c, Reaches 0 eightfoldOps c ∧ c.sys.graph.toD = eightfoldGraph ∧
    c.sys.graph.components = [⟨{0, 1}, range 8⟩] := by
  obtain ⟨c, h⟩ := exists_reaches 0 eightfoldOps (by
    simp [eightfoldOps, Store.LegalRun, Store.Legal, Store.empty, Store.step, Store.IsPoint, Store.ConOk, Elem.kind, List.replicate]) (by simp [eightfoldOps])
  exact ⟨c, h, component_of_run h (by decide +kernel)⟩

theorem parallel_consistent : Consistent parallelGraph {0, 1, 2, 3} {0} := by
  refine ⟨by decide, ?_⟩
  have : ∀ v ∈ ({0, 1, 2, 3} : Finset Nat), v < 4 := by decide
  intro v hv
  exact ⟨⟨2, [0]⟩, by revert v; decide, by decide, by revert v; decide⟩

theorem eightfold_consistent : Consistent eightfoldGraph {0, 1} (range 8) := by
  refine ⟨by decide, ?_⟩
  intro v hv
  exact ⟨⟨2, List.range 8⟩, by revert v; decide, by decide, by revert v; decide⟩

/-- The code violates the documentation: in the graph of two parallel lines no subgraph meets the documented condition, so the
documented result is `None`. For every iteration order the code returns a pair of points, with four degrees of freedom. -/
theorem C65_sparse_found : ∃ c, Reaches 0 parallelOps c ∧ ∃ comp, c.sys.graph.components = [comp] ∧
    (∀ S, ¬ Documented c.sys.graph.toD comp.elements comp.constraints 3 S) ∧
    ∀ ord, HashOrder.Ok ord → ∀ step, ∃ S, (c.sys.firstSearch comp).denseBfs ord step = .ok (some S) ∧ S.card = 2 ∧
      freedom c.sys.graph.toD comp.constraints S = 4 := by
  obtain ⟨c, h, hg, hcomp⟩ := parallel_reaches
  refine ⟨c, h, _, hcomp, fun S hS => ?_, fun ord hord step => ?_⟩
  · rw [hg] at hS
    have h1 : freedom parallelGraph {0} S < 3 + 1 := hS.dense
    have h2 : ∀ S ∈ powerset ({0, 1, 2, 3} : Finset Nat), 2 ≤ S.card → 4 ≤ freedom parallelGraph {0} S := by decide +kernel
    have := h2 S (mem_powerset.2 hS.vertices) hS.size
    omega
  · have hc := parallel_consistent
    rw [System.firstSearch, hg]
    have hr : parallelGraph.InRange := by rw [← hg]; exact (h.decomposeOk (comp := ⟨{0, 1, 2, 3}, {0}⟩) (by rw [hcomp]; simp)).range
    obtain ⟨S, h1, h2, h3⟩ := C65_pairs_first (env := ⟨parallelGraph, [], {0}, {0, 1, 2, 3}, -(3 + 1)⟩) hr hc hord step
      (u := 0) (v := 1) (by simp) (by simp) (by simp) ⟨0, by simp, by decide, by decide⟩ (by simp) (by decide +kernel)
    have h4 : ∀ S ∈ powerset ({0, 1, 2, 3} : Finset Nat), S.card = 2 → freedom parallelGraph {0} S = 4 := by decide +kernel
    exact ⟨S, h1, h3, h4 S (mem_powerset.2 h2.vertices) h3⟩

/-- The other way round: two points with eight distances meet the documented condition (`4 - 8 < 3 + 1`); the code returns `None`. -/
theorem C65_dense_missed : ∃ c, Reaches 0 eightfoldOps c ∧ ∃ comp, c.sys.graph.components = [comp] ∧
    Documented c.sys.graph.toD comp.elements comp.constraints 3 comp.elements ∧
    ∀ ord, HashOrder.Ok ord → ∀ step, (c.sys.firstSearch comp).denseBfs ord step = .ok none := by
  obtain ⟨c, h, hg, hcomp⟩ := eightfold_reaches
  have hc := eightfold_consistent
  have hr : eightfoldGraph.InRange := by rw [← hg]; exact (h.decomposeOk (comp := ⟨{0, 1}, range 8⟩) (by rw [hcomp]; simp)).range
  refine ⟨c, h, _, hcomp, ?_, fun ord hord step => ?_⟩
  · rw [hg]
    refine ⟨Subset.rfl, ?_, by decide, by decide +kernel⟩
    have hgr : Grown ⟨eightfoldGraph, [], range 8, {0, 1}, -(3 + 1)⟩ (insert 0 {1}) :=
      .more (.one (by simp)) (by simp) (by simp) ⟨1, by simp, 0, by simp, by decide, by decide⟩
    exact hgr.connected
  · rw [System.firstSearch, hg]
    obtain ⟨r, h1, -, h3⟩ := C65_dense_minimum_partial (env := ⟨eightfoldGraph, [], range 8, {0, 1}, -(3 + 1)⟩) hr hc hord step
    rw [h1, h3.2]
    intro S hS
    have h2 : ∀ S ∈ powerset ({0, 1} : Finset Nat), 2 ≤ S.card → freedom eightfoldGraph (range 8) S = -4 := by decide +kernel
    have := h2 S (mem_powerset.2 hS.vertices) hS.size
    have h4 := hS.free
    simp only at h4
    omega

/-- Two perpendicular lines with a common end. -/
def rightAngleOps : List (Op Int) :=
  [.createPoint 0 0, .createPoint 1 0, .createPoint 1 1, .createLine 0 1, .createLine 1 2, .createCon (.lineLinePerpendicularity 3 4)]

/-- Where a constraint names an element twice (two lines with a common end), its valency is subtracted twice if that element comes
last, and once otherwise: here for the right angle between the lines `0 1` and `1 2`. -/
theorem C65_repeated_counted_twice : ∃ c, Reaches 0 rightAngleOps c ∧
    c.sys.graph.toD.additionalValency {0} {0, 1, 2} 1 = .ok 2 ∧ c.sys.graph.toD.additionalValency {0} {0, 1, 2} 2 = .ok 1 := by
  obtain ⟨c, h⟩ := exists_reaches 0 rightAngleOps (by
    simp [rightAngleOps, Store.LegalRun, Store.Legal, Store.empty, Store.step, Store.IsPoint, Store.IsLine, Store.ConOk]) (by simp [rightAngleOps])
  obtain ⟨h1, -⟩ := component_of_run (g := ⟨[⟨2, [0]⟩, ⟨2, [0, 0]⟩, ⟨2, [0]⟩, ⟨0, []⟩, ⟨0, []⟩], [⟨1, [0, 1, 1, 2]⟩]⟩)
    (V := {0, 1, 2}) (E := {0}) h (by decide +kernel)
  exact ⟨c, h, by rw [h1]; rfl, by rw [h1]; rfl⟩

/-- Case: a triangle of distances meets the hypotheses of `C65_first_search_partial`. -/
example : ∃ c, Reaches 0 [.createPoint (0 : Int) 0, .createPoint 1 0, .createPoint 0 1, .createCon (.pointPointDistance 0 1 1),
      .createCon (.pointPointDistance 1 2 1), .createCon (.pointPointDistance 2 0 1)] c ∧
    ∃ comp ∈ c.sys.graph.components, comp.elements = {0, 1, 2} ∧ Consistent c.sys.graph.toD comp.elements comp.constraints := by
  obtain ⟨c, h⟩ := exists_reaches 0 [.createPoint (0 : Int) 0, .createPoint 1 0, .createPoint 0 1, .createCon (.pointPointDistance 0 1 1),
      .createCon (.pointPointDistance 1 2 1), .createCon (.pointPointDistance 2 0 1)] (by
    simp [Store.LegalRun, Store.Legal, Store.empty, Store.step, Store.IsPoint, Store.ConOk]) (by simp)
  obtain ⟨-, h1⟩ := component_of_run (g := ⟨[⟨2, [0, 2]⟩, ⟨2, [0, 1]⟩, ⟨2, [1, 2]⟩], [⟨1, [0, 1]⟩, ⟨1, [1, 2]⟩, ⟨1, [2, 0]⟩]⟩)
    (V := {0, 1, 2}) (E := {0, 1, 2}) h (by decide +kernel)
  refine ⟨c, h, _, by rw [h1]; exact List.mem_singleton_self _, rfl, h.graphConsistent (by rw [h1]; exact List.mem_singleton_self _) ?_⟩
  intro e he con hcon
  have hmem := List.mem_of_getElem? hcon
  simp [Store.empty, Store.run, Store.step] at hmem
  rcases hmem with rfl | rfl | rfl <;> simp [Store.ProperArguments, Store.actsOn]

end Fiksi
