import Verif.Model.Decompose
import Verif.Proofs.IndexMap
import Verif.Proofs.Refine
import Mathlib.Tactic.Ring
import Mathlib.Tactic.Linarith
/-! # Facts about `dense_bfs`: it terminates, does not panic and only returns unblocked parts of the given vertices -/
namespace Fiksi

/-- The indices stored in the graph are in range. -/
structure DGraph.InRange (g : DGraph) : Prop where
  inc : ∀ (v : Nat) el, g.elements[v]? = some el → ∀ e ∈ el.incidentConstraints, e < g.constraints.length

structure DenseEnv.Ok (env : DenseEnv) : Prop where
  range : env.graph.InRange
  verts : ∀ v ∈ env.vertices, v < env.graph.elements.length

theorem DGraph.availableAt_ok {g : DGraph} {available : Finset Nat} {vertex : Nat} {el : DElement}
    (h : g.elements[vertex]? = some el) :
    g.availableAt available vertex = .ok (el.incidentConstraints.filter (fun e => decide (e ∈ available))) := by
  simp [availableAt, idx_of h]

variable {env : DenseEnv}

theorem DenseEnv.Ok.element (h : env.Ok) {v : Nat} (hv : v ∈ env.vertices) : ∃ el, env.graph.elements[v]? = some el :=
  getElem?_exists (h.verts v hv)

theorem DenseEnv.Ok.valency (h : env.Ok) {v : Nat} (hv : v ∈ env.vertices) (next : Finset Nat) :
    ∃ a, env.graph.additionalValency env.available next v = .ok a := by
  obtain ⟨el, hel⟩ := h.element hv
  obtain ⟨a, ha, -⟩ := foldlM_ok (fun _ => True) (fun (add : Int) edgeId => do
    let edge ← idx env.graph.constraints edgeId
    pure (if edge.incidentElements.all (fun u => decide (u ∈ next)) then add + edge.valency else add))
    (el.incidentConstraints.filter (fun e => decide (e ∈ env.available))) 0 trivial (by
      intro s e he _
      obtain ⟨c, hc⟩ := getElem?_exists (h.range.inc v el hel e (List.mem_of_mem_filter he))
      simp only [idx_of hc, ok_bind, pure_eq_ok]
      exact ⟨_, rfl, trivial⟩)
  exact ⟨a, by rw [DGraph.additionalValency, DGraph.availableAt_ok hel]; exact ha⟩

theorem DenseEnv.Ok.adjacent (h : env.Ok) {v : Nat} (hv : v ∈ env.vertices) {sub adj : Finset Nat}
    (hadj : adj ⊆ env.vertices \ sub) :
    ∃ a, env.graph.extendAdjacent env.available env.vertices sub v adj = .ok a ∧ a ⊆ env.vertices \ sub := by
  obtain ⟨el, hel⟩ := h.element hv
  obtain ⟨a, ha, ha'⟩ := foldlM_ok (fun a => a ⊆ env.vertices \ sub) (fun (adjacent : Finset Nat) edgeId => do
    let edge ← idx env.graph.constraints edgeId
    pure (adjacent ∪
      (edge.incidentElements.filter (fun u => decide (u ∈ env.vertices) && !decide (u ∈ sub))).toFinset))
    (el.incidentConstraints.filter (fun e => decide (e ∈ env.available))) adj hadj (by
      intro s e he hs
      obtain ⟨c, hc⟩ := getElem?_exists (h.range.inc v el hel e (List.mem_of_mem_filter he))
      simp only [idx_of hc, ok_bind, pure_eq_ok]
      refine ⟨_, rfl, Finset.union_subset hs ?_⟩
      intro x hx
      simpa using (List.mem_filter.1 (List.mem_toFinset.1 hx)).2)
  exact ⟨a, by rw [DGraph.extendAdjacent, DGraph.availableAt_ok hel]; exact ha, ha'⟩

/-- A state of the search: its vertices, and other vertices next to them. -/
structure SubgraphState.Ok (env : DenseEnv) (st : SubgraphState) : Prop where
  sub : st.subgraph ⊆ env.vertices
  adj : st.adjacent ⊆ env.vertices \ st.subgraph

/-- What a successful search returns. -/
def DenseEnv.Found (env : DenseEnv) (s : Finset Nat) : Prop := s ⊆ env.vertices ∧ s ∉ env.blocked

theorem DenseEnv.Ok.expand (h : env.Ok) {st : SubgraphState} (hst : st.Ok env) :
    ∀ (l : List Nat) (new : List SubgraphState), (∀ v ∈ l, v ∈ st.adjacent) →
      (∃ s, env.expand st l new = .ok (.inl s) ∧ env.Found s) ∨
      ∃ more, env.expand st l new = .ok (.inr (new ++ more)) ∧ more.length = l.length ∧
        ∀ s ∈ more, s.Ok env ∧ s.subgraph.card = st.subgraph.card + 1 := by
  intro l
  induction l with
  | nil => intro new _; exact .inr ⟨[], by simp [DenseEnv.expand], rfl, by simp⟩
  | cons v l ih =>
    intro new hl
    have hv : v ∈ env.vertices ∧ v ∉ st.subgraph := by simpa using hst.adj (hl v (by simp))
    have hnext : insert v st.subgraph ⊆ env.vertices := Finset.insert_subset hv.1 hst.sub
    obtain ⟨a, ha⟩ := h.valency hv.1 (insert v st.subgraph)
    obtain ⟨el, hel⟩ := h.element hv.1
    obtain ⟨adj, hadj, hadj'⟩ := h.adjacent hv.1 (sub := insert v st.subgraph) (adj := st.adjacent.erase v) (by
      intro x hx
      rw [Finset.mem_erase] at hx
      have := hst.adj hx.2
      simp only [Finset.mem_sdiff, Finset.mem_insert, not_or] at this ⊢
      exact ⟨this.1, hx.1, this.2⟩)
    rw [DenseEnv.expand]
    simp only [ha, idx_of hel, ok_bind]
    by_cases hd : insert v st.subgraph ∉ env.blocked ∧ st.dof + el.dof - a > env.k
    · rw [if_pos hd]
      exact .inl ⟨_, rfl, hnext, hd.1⟩
    · rw [if_neg hd]
      simp only [hadj, ok_bind]
      rcases ih (new ++ [⟨insert v st.subgraph, st.dof + el.dof - a, adj, v :: st.path⟩]) (fun w hw => hl w (by simp [hw])) with
        h1 | ⟨more, h1, h2, h3⟩
      · exact .inl h1
      · refine .inr ⟨⟨insert v st.subgraph, st.dof + el.dof - a, adj, v :: st.path⟩ :: more, ?_, by simp [h2], ?_⟩
        · rw [h1]; simp
        · intro s hs
          rcases List.mem_cons.1 hs with rfl | hs
          · exact ⟨⟨hnext, hadj'⟩, by simp [Finset.card_insert_of_notMem hv.2]⟩
          · exact h3 s hs

/-- Upper bound of the number of states reached from a state. -/
def weight (n : Nat) (st : SubgraphState) : Nat := (n + 1) ^ (n - st.subgraph.card)

theorem weight_pos (n : Nat) (st : SubgraphState) : 1 ≤ weight n st := Nat.one_le_pow _ _ (by omega)

theorem sum_const {α : Type} (f : α → Nat) (c : Nat) (l : List α) (h : ∀ a ∈ l, f a = c) : (l.map f).sum = l.length * c := by
  induction l with
  | nil => simp
  | cons a l ih =>
    rw [List.map_cons, List.sum_cons, ih (fun b hb => h b (by simp [hb])), h a (by simp), List.length_cons]
    ring

theorem DenseEnv.Ok.search (h : env.Ok) {ord : HashOrder} (hord : ord.Ok) (step : Nat) :
    ∀ (fuel : Nat) (queue : List SubgraphState), (∀ st ∈ queue, st.Ok env) →
      (queue.map (weight env.vertices.card)).sum ≤ fuel →
      ∃ r, env.search ord step fuel queue = .ok r ∧ ∀ s, r = some s → env.Found s := by
  intro fuel
  induction fuel with
  | zero =>
    intro queue hq hw
    cases queue with
    | nil => exact ⟨none, by simp [DenseEnv.search], by simp⟩
    | cons st queue =>
      have := weight_pos env.vertices.card st
      simp only [List.map_cons, List.sum_cons] at hw
      omega
  | succ fuel ih =>
    intro queue hq hw
    cases queue with
    | nil => exact ⟨none, by simp [DenseEnv.search], by simp⟩
    | cons st queue =>
      have hst := hq st (by simp)
      rw [DenseEnv.search]
      have hmem := (hord (step :: 1 :: st.path) st.adjacent)
      rcases h.expand hst (ord (step :: 1 :: st.path) st.adjacent) [] (fun v hv => (hmem.2 v).1 hv) with
        ⟨s, h1, h2⟩ | ⟨more, h1, h2, h3⟩
      · rw [h1]
        exact ⟨some s, rfl, by rintro _ ⟨⟩; exact h2⟩
      · rw [h1]
        simp only [ok_bind, List.nil_append]
        refine ih _ ?_ ?_
        · intro s hs
          rcases List.mem_append.1 hs with hs | hs
          · exact hq s (by simp [hs])
          · exact (h3 s hs).1
        · have hlen : more.length = st.adjacent.card := by
            rw [h2, ← List.toFinset_card_of_nodup hmem.1]
            congr 1
            ext x
            simp [hmem.2]
          have hadj : st.adjacent.card + st.subgraph.card ≤ env.vertices.card := by
            have h4 := Finset.card_le_card hst.adj
            have h5 := Finset.card_sdiff_of_subset hst.sub
            have h6 := Finset.card_le_card hst.sub
            omega
          rw [List.map_append, List.sum_append]
          simp only [List.map_cons, List.sum_cons] at hw
          rw [sum_const (weight env.vertices.card) ((env.vertices.card + 1) ^ (env.vertices.card - (st.subgraph.card + 1))) more
            (fun s hs => by rw [weight, (h3 s hs).2]), hlen]
          have hlt : st.adjacent.card * (env.vertices.card + 1) ^ (env.vertices.card - (st.subgraph.card + 1)) <
              weight env.vertices.card st := by
            by_cases h0 : st.adjacent.card = 0
            · rw [h0]; have := weight_pos env.vertices.card st; omega
            · obtain ⟨m, hm⟩ : ∃ m, env.vertices.card - st.subgraph.card = m + 1 := ⟨_, (Nat.succ_pred_eq_of_pos (by omega)).symm⟩
              have hm' : env.vertices.card - (st.subgraph.card + 1) = m := by omega
              rw [weight, hm, hm', pow_succ]
              have hp : 0 < (env.vertices.card + 1) ^ m := Nat.pow_pos (by omega)
              rw [Nat.mul_comm]
              exact Nat.mul_lt_mul_of_pos_left (by omega) hp
          omega

/-- `dense_bfs` terminates without panic; what it returns is an unblocked set of the vertices. -/
theorem DenseEnv.Ok.denseBfs (h : env.Ok) {ord : HashOrder} (hord : ord.Ok) (step : Nat) :
    ∃ r, env.denseBfs ord step = .ok r ∧ ∀ s, r = some s → env.Found s := by
  have hseed : ∀ (l : List Nat), (∀ v ∈ l, v ∈ env.vertices) → ∃ q, l.mapM env.seed = .ok q ∧ q.length = l.length ∧
      ∀ s ∈ q, s.Ok env ∧ s.subgraph.card = 1 := by
    intro l
    induction l with
    | nil => intro _; exact ⟨[], rfl, rfl, by simp⟩
    | cons v l ih =>
      intro hl
      have hv := hl v (by simp)
      obtain ⟨q, h1, h2, h3⟩ := ih (fun w hw => hl w (by simp [hw]))
      obtain ⟨el, hel⟩ := h.element hv
      obtain ⟨adj, h4, h5⟩ := h.adjacent hv (sub := {v}) (adj := ∅) (by simp)
      refine ⟨⟨{v}, el.dof, adj, [v]⟩ :: q, ?_, by simp [h2], ?_⟩
      · rw [List.mapM_cons, h1]
        simp [DenseEnv.seed, h4, idx_of hel]
      · intro s hs
        rcases List.mem_cons.1 hs with rfl | hs
        · exact ⟨⟨by simpa using hv, h5⟩, by simp⟩
        · exact h3 s hs
  have hmem := hord [step, 0] env.vertices
  obtain ⟨q, h1, h2, h3⟩ := hseed (ord [step, 0] env.vertices) (fun v hv => (hmem.2 v).1 hv)
  rw [DenseEnv.denseBfs, h1]
  refine h.search hord step _ q (fun s hs => (h3 s hs).1) ?_
  have hlen : q.length = env.vertices.card := by
    rw [h2, ← List.toFinset_card_of_nodup hmem.1]
    congr 1
    ext x
    simp [hmem.2]
  rw [sum_const (weight env.vertices.card) ((env.vertices.card + 1) ^ (env.vertices.card - 1)) q
    (fun s hs => by rw [weight, (h3 s hs).2]), hlen]
  exact Nat.mul_le_mul_left _ (Nat.pow_le_pow_right (by omega) (by omega))

end Fiksi
