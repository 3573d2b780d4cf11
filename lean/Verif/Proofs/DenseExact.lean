import Verif.Spec.Dense
import Verif.Proofs.DenseBfs
import Mathlib.Algebra.BigOperators.Ring.Finset
/-! # `dense_bfs` searches by size, and counts degrees of freedom correctly -/
namespace Fiksi
open Spec Finset

/-- The sets the search builds: one vertex after the other. -/
inductive Grown (env : DenseEnv) : Finset Nat → Prop
  | one {v} : v ∈ env.vertices → Grown env {v}
  | more {S u} : Grown env S → u ∈ env.vertices → u ∉ S → (∃ v ∈ S, JoinedBy env.graph env.available v u) → Grown env (insert u S)

theorem Spec.JoinedBy.symm {g : DGraph} {es : Finset Nat} {u v : Nat} (h : JoinedBy g es u v) : JoinedBy g es v u := by
  obtain ⟨e, he, h1, h2⟩ := h
  exact ⟨e, he, h2, h1⟩

variable {env : DenseEnv}

theorem Grown.sub {S : Finset Nat} (h : Grown env S) : S ⊆ env.vertices := by
  induction h with
  | one hv => simpa using hv
  | more _ hu _ _ ih => exact insert_subset hu ih

theorem Grown.connected {S : Finset Nat} (h : Grown env S) : ConnectedSet env.graph env.available S := by
  induction h with
  | one hv =>
    refine ⟨singleton_nonempty _, fun A hA hn hne => ?_⟩
    rcases subset_singleton_iff.1 hA with rfl | rfl
    · simp at hn
    · exact absurd rfl hne
  | @more S u hS hu huS hj ih =>
    refine ⟨insert_nonempty _ _, fun A hA hn hne => ?_⟩
    obtain ⟨v, hv, hvu⟩ := hj
    by_cases h1 : (A ∩ S).Nonempty
    · by_cases h2 : A ∩ S = S
      · have hSA : S ⊆ A := inter_eq_right.1 h2
        have huA : u ∉ A := fun hc => hne (hA.antisymm (insert_subset hc hSA))
        exact ⟨v, hSA hv, u, mem_insert_self _ _, huA, hvu⟩
      · obtain ⟨x, hx, y, hy, hyx, hxy⟩ := ih.2 (A ∩ S) inter_subset_right h1 h2
        exact ⟨x, (mem_inter.1 hx).1, y, mem_insert_of_mem hy, fun hc => hyx (mem_inter.2 ⟨hc, hy⟩), hxy⟩
    · rw [not_nonempty_iff_eq_empty] at h1
      have hnot : ∀ x ∈ A, x ∉ S := fun x hx hxS => by
        have : x ∈ A ∩ S := mem_inter.2 ⟨hx, hxS⟩
        rw [h1] at this; simp at this
      obtain ⟨x, hx⟩ := hn
      have hxu : x = u := by
        rcases mem_insert.1 (hA hx) with h | h
        · exact h
        · exact absurd h (hnot x hx)
      subst hxu
      exact ⟨x, hx, v, mem_insert_of_mem hv, fun hc => hnot v hc hv, hvu.symm⟩

theorem Grown.of_connected {S : Finset Nat} (hs : S ⊆ env.vertices) (h : ConnectedSet env.graph env.available S) : Grown env S := by
  have key : ∀ m, 1 ≤ m → m ≤ S.card → ∃ A ⊆ S, Grown env A ∧ A.card = m := by
    intro m hm
    induction m, hm using Nat.le_induction with
    | base =>
      intro _
      obtain ⟨x, hx⟩ := h.1
      exact ⟨{x}, by simpa using hx, .one (hs hx), by simp⟩
    | succ m hm ih =>
      intro hle
      obtain ⟨A, hA, hg, hc⟩ := ih (by omega)
      obtain ⟨v, hv, u, hu, huA, hj⟩ := h.2 A hA (card_pos.1 (by omega)) (by rintro rfl; omega)
      exact ⟨insert u A, insert_subset hu hA, .more hg (hs hu) huA ⟨v, hv, hj⟩, by rw [card_insert_of_notMem huA, hc]⟩
  obtain ⟨A, hA, hg, hc⟩ := key S.card (card_pos.2 h.1) le_rfl
  rwa [eq_of_subset_of_card_le hA hc.ge] at hg

theorem endsOf_of {g : DGraph} {e : Nat} {c : DConstraint} (h : g.constraints[e]? = some c) : endsOf g e = c.incidentElements := by
  simp [endsOf, h]

theorem valencyAt_of {g : DGraph} {e : Nat} {c : DConstraint} (h : g.constraints[e]? = some c) : valencyAt g e = c.valency := by
  simp [valencyAt, h]

theorem dofAt_of {g : DGraph} {v : Nat} {c : DElement} (h : g.elements[v]? = some c) : dofAt g v = c.dof := by
  simp [dofAt, h]

theorem foldlM_valency {g : DGraph} {next : Finset Nat} : ∀ (l : List Nat) (a r : Int),
    l.foldlM (fun (add : Int) edgeId => do
      let edge ← idx g.constraints edgeId
      pure (if edge.incidentElements.all (fun u => decide (u ∈ next)) then add + edge.valency else add)) a = Except.ok (ε := Panic) r →
    r = a + ((l.filter (fun e => decide (∀ u ∈ endsOf g e, u ∈ next))).map (valencyAt g)).sum := by
  intro l
  induction l with
  | nil => intro a r h; simp only [List.foldlM_nil, pure_eq_ok, Except.ok.injEq] at h; simp [h]
  | cons e l ih =>
    intro a r h
    rw [List.foldlM_cons, bind_eq_ok] at h
    obtain ⟨b, h1, h2⟩ := h
    rw [bind_eq_ok] at h1
    obtain ⟨c, hc, h1⟩ := h1
    rw [idx_eq_ok] at hc
    simp only [pure_eq_ok, Except.ok.injEq] at h1
    rw [ih b r h2, ← h1]
    have hiff : (c.incidentElements.all (fun u => decide (u ∈ next)) = true) ↔ ∀ u ∈ endsOf g e, u ∈ next := by
      rw [endsOf_of hc]; simp
    by_cases hd : ∀ u ∈ endsOf g e, u ∈ next
    · rw [if_pos (hiff.2 hd), List.filter_cons_of_pos (by simpa using hd), List.map_cons, List.sum_cons, valencyAt_of hc]
      ring
    · rw [if_neg (fun hh => hd (hiff.1 hh)), List.filter_cons_of_neg (by simpa using hd)]

theorem foldlM_adjacent {g : DGraph} {V sub : Finset Nat} : ∀ (l : List Nat) (a r : Finset Nat),
    l.foldlM (fun (adjacent : Finset Nat) edgeId => do
      let edge ← idx g.constraints edgeId
      pure (adjacent ∪ (edge.incidentElements.filter (fun u => decide (u ∈ V) && !decide (u ∈ sub))).toFinset)) a =
        Except.ok (ε := Panic) r →
    ∀ u, u ∈ r ↔ u ∈ a ∨ (u ∈ V ∧ u ∉ sub ∧ ∃ e ∈ l, u ∈ endsOf g e) := by
  intro l
  induction l with
  | nil => intro a r h; simp only [List.foldlM_nil, pure_eq_ok, Except.ok.injEq] at h; simp [h]
  | cons e l ih =>
    intro a r h u
    rw [List.foldlM_cons, bind_eq_ok] at h
    obtain ⟨b, h1, h2⟩ := h
    rw [bind_eq_ok] at h1
    obtain ⟨c, hc, h1⟩ := h1
    rw [idx_eq_ok] at hc
    simp only [pure_eq_ok, Except.ok.injEq] at h1
    rw [ih b r h2, ← h1]
    simp only [mem_union, List.mem_toFinset, List.mem_filter, Bool.and_eq_true, decide_eq_true_eq, Bool.not_eq_true',
      decide_eq_false_iff_not, List.mem_cons, exists_eq_or_imp, endsOf_of hc]
    tauto

theorem nodup_of_count {l : List Nat} {s : Finset Nat} (h : ∀ e ∈ s, l.count e ≤ 1) : (l.filter (fun e => decide (e ∈ s))).Nodup := by
  rw [List.nodup_iff_count_le_one]
  intro e
  by_cases he : e ∈ s
  · rw [List.count_filter (by simpa using he)]; exact h e he
  · rw [List.count_eq_zero_of_not_mem (by simp [he])]; omega

/-- Adding a vertex adds its degrees of freedom and removes the valencies of the edges that are completed by it. -/
theorem freedom_insert (hc : Consistent env.graph env.vertices env.available) {S : Finset Nat} {u : Nat} (hu : u ∈ env.vertices)
    (huS : u ∉ S) {a : Int} (ha : env.graph.additionalValency env.available (insert u S) u = .ok a) :
    freedom env.graph env.available (insert u S) = freedom env.graph env.available S + dofAt env.graph u - a := by
  obtain ⟨el, hel, hnd, hinc⟩ := hc.vertex u hu
  rw [DGraph.additionalValency, DGraph.availableAt_ok hel, ok_bind] at ha
  have ha := foldlM_valency _ _ _ ha
  rw [zero_add, ← List.sum_toFinset _ (nodup_of_count hnd |>.filter _)] at ha
  have hset : (List.filter (fun e => decide (∀ w ∈ endsOf env.graph e, w ∈ insert u S))
      (List.filter (fun e => decide (e ∈ env.available)) el.incidentConstraints)).toFinset =
      (env.available.filter (fun e => ∀ w ∈ endsOf env.graph e, w ∈ insert u S)) \
        env.available.filter (fun e => ∀ w ∈ endsOf env.graph e, w ∈ S) := by
    ext e
    simp only [List.mem_toFinset, List.mem_filter, decide_eq_true_eq, mem_sdiff, mem_filter]
    constructor
    · rintro ⟨⟨h1, h2⟩, h3⟩
      exact ⟨⟨h2, h3⟩, fun h => huS (h.2 u ((hinc e h2).1 h1))⟩
    · rintro ⟨⟨h1, h2⟩, h3⟩
      refine ⟨⟨(hinc e h1).2 ?_, h1⟩, h2⟩
      by_contra hn
      refine h3 ⟨h1, fun w hw => ?_⟩
      rcases mem_insert.1 (h2 w hw) with rfl | h
      · exact absurd hw hn
      · exact h
  rw [hset] at ha
  have hsub : env.available.filter (fun e => ∀ w ∈ endsOf env.graph e, w ∈ S) ⊆
      env.available.filter (fun e => ∀ w ∈ endsOf env.graph e, w ∈ insert u S) := by
    intro e he
    simp only [mem_filter] at he ⊢
    exact ⟨he.1, fun w hw => mem_insert_of_mem (he.2 w hw)⟩
  have hs := sum_sdiff (f := valencyAt env.graph) hsub
  rw [freedom, freedom, sum_insert huS, ← hs, ha]
  ring

theorem freedom_single (hc : Consistent env.graph env.vertices env.available) (v : Nat) :
    freedom env.graph env.available {v} = dofAt env.graph v := by
  rw [freedom, sum_singleton, filter_eq_empty_iff.2, sum_empty, sub_zero]
  intro e he h
  have h2 := (hc.edge e he).2
  have : (endsOf env.graph e).toFinset ⊆ {v} := fun x hx => h x (List.mem_toFinset.1 hx)
  have := card_le_card this
  simp at this
  omega

/-- What a state of the search means. -/
structure SubgraphState.Means (env : DenseEnv) (st : SubgraphState) : Prop where
  grown : Grown env st.subgraph
  dof : st.dof = freedom env.graph env.available st.subgraph
  adj : ∀ u, u ∈ st.adjacent ↔ u ∈ env.vertices ∧ u ∉ st.subgraph ∧ ∃ v ∈ st.subgraph, JoinedBy env.graph env.available v u

theorem seed_means (hc : Consistent env.graph env.vertices env.available) {v : Nat} (hv : v ∈ env.vertices) {st : SubgraphState}
    (h : env.seed v = .ok st) : st.Means env ∧ st.subgraph = {v} := by
  obtain ⟨el, hel, hnd, hinc⟩ := hc.vertex v hv
  rw [DenseEnv.seed, bind_eq_ok] at h
  obtain ⟨adj, hadj, h⟩ := h
  rw [idx_of hel, ok_bind, pure_eq_ok, Except.ok.injEq] at h
  subst h
  rw [DGraph.extendAdjacent, DGraph.availableAt_ok hel, ok_bind] at hadj
  refine ⟨⟨.one hv, ?_, ?_⟩, rfl⟩
  · rw [freedom_single hc, dofAt_of hel]
  · intro u
    rw [foldlM_adjacent _ _ _ hadj]
    simp only [notMem_empty, false_or, List.mem_filter, decide_eq_true_eq, mem_singleton, exists_eq_left, JoinedBy]
    constructor
    · rintro ⟨h1, h2, e, ⟨h3, h4⟩, h5⟩
      exact ⟨h1, h2, e, h4, (hinc e h4).1 h3, h5⟩
    · rintro ⟨h1, h2, e, h4, h3, h5⟩
      exact ⟨h1, h2, e, ⟨(hinc e h4).2 h3, h4⟩, h5⟩

/-- Dense and not blocked. -/
def DenseEnv.Good (env : DenseEnv) (S : Finset Nat) : Prop := S ∉ env.blocked ∧ env.k < freedom env.graph env.available S

theorem expand_means (hc : Consistent env.graph env.vertices env.available) {st : SubgraphState} (hst : st.Means env) :
    ∀ (l : List Nat) (new : List SubgraphState) r, (∀ v ∈ l, v ∈ st.adjacent) → env.expand st l new = .ok r →
      (∃ v ∈ l, r = .inl (insert v st.subgraph) ∧ env.Good (insert v st.subgraph)) ∨
      ∃ more, r = .inr (new ++ more) ∧ (∀ s ∈ more, s.Means env ∧ ∃ v ∈ l, s.subgraph = insert v st.subgraph) ∧
        ∀ v ∈ l, ¬ env.Good (insert v st.subgraph) ∧ ∃ s ∈ more, s.subgraph = insert v st.subgraph := by
  intro l
  induction l with
  | nil =>
    intro new r _ h
    simp only [DenseEnv.expand, Except.ok.injEq] at h
    exact .inr ⟨[], by simp [h], by simp, by simp⟩
  | cons v l ih =>
    intro new r hl h
    obtain ⟨hv, hvS, hj⟩ := (hst.adj v).1 (hl v (by simp))
    obtain ⟨el, hel, hnd, hinc⟩ := hc.vertex v hv
    have hg : Grown env (insert v st.subgraph) := .more hst.grown hv hvS hj
    rw [DenseEnv.expand] at h
    simp only [bind_eq_ok] at h
    obtain ⟨a, ha, el', hel', h⟩ := h
    rw [idx_of hel, Except.ok.injEq] at hel'
    subst hel'
    have hf : st.dof + el.dof - a = freedom env.graph env.available (insert v st.subgraph) := by
      rw [freedom_insert hc hv hvS ha, hst.dof, dofAt_of hel]
    rw [hf] at h
    by_cases hd : insert v st.subgraph ∉ env.blocked ∧ freedom env.graph env.available (insert v st.subgraph) > env.k
    · rw [if_pos hd, Except.ok.injEq] at h
      exact .inl ⟨v, by simp, h.symm, hd⟩
    · rw [if_neg hd, bind_eq_ok] at h
      obtain ⟨adj, hadj, h⟩ := h
      rw [DGraph.extendAdjacent, DGraph.availableAt_ok hel, ok_bind] at hadj
      have hnew : (⟨insert v st.subgraph, freedom env.graph env.available (insert v st.subgraph), adj, v :: st.path⟩ : SubgraphState).Means env := by
        refine ⟨hg, rfl, fun u => ?_⟩
        rw [foldlM_adjacent _ _ _ hadj, mem_erase, hst.adj]
        simp only [List.mem_filter, decide_eq_true_eq, mem_insert, exists_eq_or_imp]
        constructor
        · rintro (⟨h1, h2, h3, h4⟩ | ⟨h1, h2, e, ⟨h3, h4⟩, h5⟩)
          · exact ⟨h2, by tauto, .inr h4⟩
          · exact ⟨h1, h2, .inl ⟨e, h4, (hinc e h4).1 h3, h5⟩⟩
        · rintro ⟨h1, h2, ⟨e, h4, h3, h5⟩ | h4⟩
          · exact .inr ⟨h1, h2, e, ⟨(hinc e h4).2 h3, h4⟩, h5⟩
          · exact .inl ⟨by tauto, h1, by tauto, h4⟩
      rcases ih _ r (fun w hw => hl w (by simp [hw])) h with ⟨w, hw, h1, h2⟩ | ⟨more, h1, h2, h3⟩
      · exact .inl ⟨w, by simp [hw], h1, h2⟩
      · refine .inr ⟨_ :: more, by rw [h1]; simp; rfl, ?_, ?_⟩
        · intro s hs
          rcases List.mem_cons.1 hs with rfl | hs
          · exact ⟨hnew, v, by simp, rfl⟩
          · obtain ⟨h4, w, hw, h5⟩ := h2 s hs
            exact ⟨h4, w, by simp [hw], h5⟩
        · intro w hw
          rcases List.mem_cons.1 hw with rfl | hw
          · exact ⟨hd, _, List.mem_cons_self, rfl⟩
          · obtain ⟨h4, s, hs, h5⟩ := h3 w hw
            exact ⟨h4, s, by simp [hs], h5⟩

/-- The states of one size are all handled before the states of the next size. -/
theorem search_level (hc : Consistent env.graph env.vertices env.available) {ord : HashOrder} (hord : ord.Ok) (step : Nat) :
    ∀ (L M : List SubgraphState) (fuel : Nat) r, (∀ st ∈ L, st.Means env) → env.search ord step fuel (L ++ M) = .ok r →
      (∃ st ∈ L, ∃ v ∈ st.adjacent, r = some (insert v st.subgraph) ∧ env.Good (insert v st.subgraph)) ∨
      ∃ M' fuel', env.search ord step fuel' (M ++ M') = .ok r ∧
        (∀ s ∈ M', s.Means env ∧ ∃ st ∈ L, ∃ v ∈ st.adjacent, s.subgraph = insert v st.subgraph) ∧
        ∀ st ∈ L, ∀ v ∈ st.adjacent, ¬ env.Good (insert v st.subgraph) ∧ ∃ s ∈ M', s.subgraph = insert v st.subgraph := by
  intro L
  induction L with
  | nil => intro M fuel r _ h; exact .inr ⟨[], fuel, by simpa using h, by simp, by simp⟩
  | cons st L ih =>
    intro M fuel r hL h
    have hmem := hord (step :: 1 :: st.path) st.adjacent
    cases fuel with
    | zero => simp [DenseEnv.search] at h
    | succ fuel =>
      rw [List.cons_append, DenseEnv.search, bind_eq_ok] at h
      obtain ⟨x, hx, h⟩ := h
      rcases expand_means hc (hL st (by simp)) _ _ _ (fun v hv => (hmem.2 v).1 hv) hx with
        ⟨v, hv, rfl, hg⟩ | ⟨more, rfl, h2, h3⟩
      · simp only [Except.ok.injEq] at h
        exact .inl ⟨st, by simp, v, (hmem.2 v).1 hv, h.symm, hg⟩
      · simp only [List.nil_append, List.append_assoc] at h
        rcases ih (M ++ more) fuel r (fun s hs => hL s (by simp [hs])) h with ⟨s, hs, h4⟩ | ⟨M', fuel', h4, h5, h6⟩
        · exact .inl ⟨s, by simp [hs], h4⟩
        · refine .inr ⟨more ++ M', fuel', by rwa [← List.append_assoc], ?_, ?_⟩
          · intro s hs
            rcases List.mem_append.1 hs with hs | hs
            · obtain ⟨h7, v, hv, h8⟩ := h2 s hs
              exact ⟨h7, st, by simp, v, (hmem.2 v).1 hv, h8⟩
            · obtain ⟨h7, st', hst', h8⟩ := h5 s hs
              exact ⟨h7, st', by simp [hst'], h8⟩
          · intro st' hst' v hv
            rcases List.mem_cons.1 hst' with rfl | hst'
            · obtain ⟨h7, s, hs, h8⟩ := h3 v ((hmem.2 v).2 hv)
              exact ⟨h7, s, by simp [hs], h8⟩
            · obtain ⟨h7, s, hs, h8⟩ := h6 st' hst' v hv
              exact ⟨h7, s, by simp [hs], h8⟩

theorem search_minimum (hc : Consistent env.graph env.vertices env.available) {ord : HashOrder} (hord : ord.Ok) (step : Nat) :
    ∀ (m n : Nat) (L : List SubgraphState) (fuel : Nat) r, 1 ≤ n → env.vertices.card + 1 ≤ n + m →
      (∀ st ∈ L, st.Means env ∧ st.subgraph.card = n) → (∀ S, Grown env S → S.card = n → ∃ st ∈ L, st.subgraph = S) →
      env.search ord step fuel L = .ok r →
      (∀ S, r = some S → Grown env S ∧ n < S.card ∧ env.Good S ∧ ∀ S', Grown env S' → n < S'.card → env.Good S' → S.card ≤ S'.card) ∧
      (r = none → ∀ S', Grown env S' → n < S'.card → ¬ env.Good S') := by
  intro m
  induction m with
  | zero =>
    intro n L fuel r hn1 hn hL hall h
    have hnil : L = [] := by
      rcases L with _ | ⟨st, L⟩
      · rfl
      · obtain ⟨h1, h2⟩ := hL st (by simp)
        have := card_le_card h1.grown.sub
        omega
    subst hnil
    simp only [DenseEnv.search, Except.ok.injEq] at h
    subst h
    refine ⟨by simp, fun _ S' hS' hlt => ?_⟩
    have := card_le_card hS'.sub
    omega
  | succ m ih =>
    intro n L fuel r hn1 hn hL hall h
    have hcomplete : ∀ S', Grown env S' → S'.card = n + 1 → ∃ st ∈ L, ∃ v ∈ st.adjacent, S' = insert v st.subgraph := by
      intro S' hS' hcard
      cases hS' with
      | one hv => simp at hcard; omega
      | @more S u hS hu huS hj =>
        rw [card_insert_of_notMem huS] at hcard
        obtain ⟨st, hst, rfl⟩ := hall S hS (by omega)
        exact ⟨st, hst, u, ((hL st hst).1.adj u).2 ⟨hu, huS, hj⟩, rfl⟩
    · rcases search_level hc hord step L [] fuel r (fun s hs => (hL s hs).1) (by simpa using h) with
        ⟨st, hst, v, hv, rfl, hg⟩ | ⟨M', fuel', h4, h5, h6⟩
      · obtain ⟨hm, hcard⟩ := hL st hst
        obtain ⟨hvV, hvS, hj⟩ := (hm.adj v).1 hv
        refine ⟨?_, by simp⟩
        rintro _ ⟨⟩
        rw [card_insert_of_notMem hvS]
        exact ⟨.more hm.grown hvV hvS hj, by omega, hg, fun S' _ hlt _ => by omega⟩
      · have hsize : ∀ s ∈ M', s.Means env ∧ s.subgraph.card = n + 1 := by
          intro s hs
          obtain ⟨h7, st, hst, v, hv, h8⟩ := h5 s hs
          obtain ⟨hm, hcard⟩ := hL st hst
          exact ⟨h7, by rw [h8, card_insert_of_notMem ((hm.adj v).1 hv).2.1, hcard]⟩
        have hno : ∀ S', Grown env S' → S'.card = n + 1 → ¬ env.Good S' ∧ ∃ s ∈ M', s.subgraph = S' := by
          intro S' hS' hcard
          obtain ⟨st, hst, v, hv, rfl⟩ := hcomplete S' hS' hcard
          exact h6 st hst v hv
        obtain ⟨h7, h8⟩ := ih (n + 1) M' fuel' r (by omega) (by omega) hsize (fun S hS hcard => (hno S hS hcard).2) (by simpa using h4)
        constructor
        · intro S hS
          obtain ⟨h9, h10, h11, h12⟩ := h7 S hS
          refine ⟨h9, by omega, h11, fun S' hS' hlt hg => ?_⟩
          by_cases he : S'.card = n + 1
          · exact absurd hg (hno S' hS' he).1
          · exact h12 S' hS' (by omega) hg
        · intro hr S' hS' hlt hg
          by_cases he : S'.card = n + 1
          · exact absurd hg (hno S' hS' he).1
          · exact h8 hr S' hS' (by omega) hg

theorem mapM_members {α β : Type} {f : α → R β} : ∀ {l : List α} {q : List β}, l.mapM f = .ok q →
    (∀ b ∈ q, ∃ a ∈ l, f a = .ok b) ∧ ∀ a ∈ l, ∃ b ∈ q, f a = .ok b := by
  intro l
  induction l with
  | nil => intro q h; simp only [List.mapM_nil, pure_eq_ok, Except.ok.injEq] at h; subst h; simp
  | cons a l ih =>
    intro q h
    rw [List.mapM_cons, bind_eq_ok] at h
    obtain ⟨b, hb, h⟩ := h
    rw [bind_eq_ok] at h
    obtain ⟨bs, hbs, h⟩ := h
    simp only [pure_eq_ok, Except.ok.injEq] at h
    subst h
    obtain ⟨h1, h2⟩ := ih hbs
    constructor
    · intro x hx
      rcases List.mem_cons.1 hx with rfl | hx
      · exact ⟨a, by simp, hb⟩
      · obtain ⟨y, hy, h⟩ := h1 x hx; exact ⟨y, by simp [hy], h⟩
    · intro x hx
      rcases List.mem_cons.1 hx with rfl | hx
      · exact ⟨b, by simp, hb⟩
      · obtain ⟨y, hy, h⟩ := h2 x hx; exact ⟨y, by simp [hy], h⟩

/-- `dense_bfs` finds a smallest candidate if there is one. -/
theorem denseBfs_minimum (hc : Consistent env.graph env.vertices env.available) {ord : HashOrder} (hord : ord.Ok) {step : Nat}
    {r : Option (Finset Nat)} (h : env.denseBfs ord step = .ok r) :
    (∀ S, r = some S → Candidate env S ∧ ∀ S', Candidate env S' → S.card ≤ S'.card) ∧ (r = none → ∀ S', ¬ Candidate env S') := by
  rw [DenseEnv.denseBfs, bind_eq_ok] at h
  obtain ⟨q, hq, h⟩ := h
  have hmem := hord [step, 0] env.vertices
  have hf := mapM_members hq
  have hL : ∀ st ∈ q, st.Means env ∧ st.subgraph.card = 1 := by
    intro st hst
    obtain ⟨v, hv, hs⟩ := hf.1 st hst
    obtain ⟨h1, h2⟩ := seed_means hc ((hmem.2 v).1 hv) hs
    exact ⟨h1, by rw [h2]; simp⟩
  have hall : ∀ S, Grown env S → S.card = 1 → ∃ st ∈ q, st.subgraph = S := by
    intro S hS hcard
    obtain ⟨v, rfl⟩ := card_eq_one.1 hcard
    have hv : v ∈ env.vertices := hS.sub (by simp)
    obtain ⟨st, hst, hs⟩ := hf.2 v ((hmem.2 v).2 hv)
    exact ⟨st, hst, (seed_means hc hv hs).2⟩
  have hgood : ∀ S', Candidate env S' ↔ Grown env S' ∧ 1 < S'.card ∧ env.Good S' := fun S' =>
    ⟨fun h => ⟨Grown.of_connected h.vertices h.connected, h.size, h.fresh, h.free⟩,
     fun ⟨h1, h2, h3⟩ => ⟨h1.sub, h1.connected, h2, h3.1, h3.2⟩⟩
  obtain ⟨h1, h2⟩ := search_minimum hc hord step env.vertices.card 1 q _ r le_rfl (by omega) hL hall h
  constructor
  · intro S hS
    obtain ⟨h3, h4, h5, h6⟩ := h1 S hS
    refine ⟨(hgood S).2 ⟨h3, h4, h5⟩, fun S' hS' => ?_⟩
    obtain ⟨h7, h8, h9⟩ := (hgood S').1 hS'
    exact h6 S' h7 h8 h9
  · intro hr S' hS'
    obtain ⟨h7, h8, h9⟩ := (hgood S').1 hS'
    exact h2 hr S' h7 h8 h9

end Fiksi
