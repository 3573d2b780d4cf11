import Verif.Proofs.Narrow
import Verif.Proofs.DenseExact
import Verif.Proofs.Decompose
import Mathlib.Algebra.Order.BigOperators.Group.Finset
/-! # The `i16` counts of recursive assembly do not leave their range on small components -/
namespace Fiksi

open Spec Finset

/-- Numbers up to `B` are left alone. -/
def Narrow.Wide (narrow : Narrow) (B : Nat) : Prop := ∀ x : Int, x.natAbs ≤ B → narrow x = .ok x

/-- The constraints listed at a vertex. -/
def incAt (g : DGraph) (v : Nat) : List Nat := (g.elements[v]?.map DElement.incidentConstraints).getD []

theorem incAt_of {g : DGraph} {v : Nat} {el : DElement} (h : g.elements[v]? = some el) : incAt g v = el.incidentConstraints := by
  simp [incAt, h]

/-- What a vertex can contribute to a count. -/
def DGraph.load (g : DGraph) (available : Finset Nat) (v : Nat) : Nat :=
  (dofAt g v).natAbs + (((incAt g v).filter (fun e => decide (e ∈ available))).map (fun e => (valencyAt g e).natAbs)).sum

theorem foldlM_congr_inv {σ α : Type} {f g : σ → α → R σ} (I : σ → List α → Prop) (h1 : ∀ s a l, I s (a :: l) → f s a = g s a)
    (h2 : ∀ s a l s', I s (a :: l) → g s a = .ok s' → I s' l) : ∀ (l : List α) (s : σ), I s l →
      l.foldlM f s = l.foldlM g s ∧ ∀ s', l.foldlM g s = .ok s' → I s' [] := by
  intro l
  induction l with
  | nil => intro s hs; exact ⟨rfl, fun s' h => by cases h; exact hs⟩
  | cons a l ih =>
    intro s hs
    rw [List.foldlM_cons, List.foldlM_cons, h1 s a l hs]
    cases hg : g s a with
    | error e => exact ⟨rfl, fun s' h => by cases h⟩
    | ok s1 =>
      simp only [ok_bind]
      exact ih s1 (h2 s a l s1 hs hg)

variable {narrow : Narrow} {B : Nat}

/-! ## The search -/

section
variable {env : DenseEnv}

theorem additionalValencyN_eq (hw : narrow.Wide B) (h : env.Ok) {v : Nat} (hv : v ∈ env.vertices) (hB : env.graph.load env.available v ≤ B)
    (next : Finset Nat) : env.graph.additionalValencyN narrow env.available next v = env.graph.additionalValency env.available next v ∧
      ∀ a, env.graph.additionalValency env.available next v = .ok a → (dofAt env.graph v).natAbs + a.natAbs ≤ env.graph.load env.available v := by
  obtain ⟨el, hel⟩ := h.element hv
  rw [DGraph.additionalValencyN, DGraph.additionalValency, DGraph.availableAt_ok hel, ok_bind, ok_bind]
  rw [DGraph.load, incAt_of hel] at hB ⊢
  obtain ⟨h1, h2⟩ := foldlM_congr_inv (f := fun (add : Int) edgeId => do
      let edge ← idx env.graph.constraints edgeId
      if edge.incidentElements.all (fun u => decide (u ∈ next)) then narrow (add + edge.valency) else pure add)
    (g := fun (add : Int) edgeId => do
      let edge ← idx env.graph.constraints edgeId
      pure (if edge.incidentElements.all (fun u => decide (u ∈ next)) then add + edge.valency else add))
    (fun a l => a.natAbs + (l.map (fun e => (valencyAt env.graph e).natAbs)).sum ≤
      ((el.incidentConstraints.filter (fun e => decide (e ∈ env.available))).map (fun e => (valencyAt env.graph e).natAbs)).sum)
    (by
      intro a e l hI
      simp only [List.map_cons, List.sum_cons] at hI
      simp only [idx]
      cases hc : env.graph.constraints[e]? with
      | none => rfl
      | some c =>
        rw [valencyAt_of hc] at hI
        simp only [ok_bind]
        split
        · rw [hw _ (by omega)]; rfl
        · rfl)
    (by
      intro a e l a' hI hg
      simp only [List.map_cons, List.sum_cons] at hI
      simp only [idx] at hg
      cases hc : env.graph.constraints[e]? with
      | none => rw [hc] at hg; cases hg
      | some c =>
        rw [valencyAt_of hc] at hI
        rw [hc] at hg
        simp only [ok_bind, pure_eq_ok, Except.ok.injEq] at hg
        subst hg
        split <;> omega)
    (el.incidentConstraints.filter (fun e => decide (e ∈ env.available))) 0 (by simp)
  exact ⟨h1, fun a ha => by have := h2 a ha; simp at this; omega⟩

/-- The count of a state is bounded by the loads of its vertices. -/
def SubgraphState.Light (env : DenseEnv) (st : SubgraphState) : Prop :=
  st.dof.natAbs ≤ ∑ v ∈ st.subgraph, env.graph.load env.available v

theorem expandN_eq (hw : narrow.Wide B) (h : env.Ok) (hB : ∑ v ∈ env.vertices, env.graph.load env.available v ≤ B) {st : SubgraphState}
    (hst : st.Ok env) (hl : st.Light env) : ∀ (l : List Nat) (new : List SubgraphState), (∀ v ∈ l, v ∈ st.adjacent) →
      (∀ s ∈ new, s.Ok env ∧ s.Light env) → env.expandN narrow st l new = env.expand st l new ∧
      ∀ r, env.expand st l new = .ok (.inr r) → ∀ s ∈ r, s.Ok env ∧ s.Light env := by
  intro l
  induction l with
  | nil => intro new _ hn; exact ⟨rfl, fun r hr => by cases hr; exact hn⟩
  | cons v l ih =>
    intro new hin hn
    have hv : v ∈ env.vertices ∧ v ∉ st.subgraph := by simpa using hst.adj (hin v (by simp))
    have hnext : insert v st.subgraph ⊆ env.vertices := Finset.insert_subset hv.1 hst.sub
    have hsum : ∑ u ∈ insert v st.subgraph, env.graph.load env.available u ≤ B := (sum_le_sum_of_subset hnext).trans hB
    rw [sum_insert hv.2] at hsum
    obtain ⟨e1, e2⟩ := additionalValencyN_eq hw h hv.1 (by omega) (insert v st.subgraph)
    obtain ⟨a, ha⟩ := h.valency hv.1 (insert v st.subgraph)
    obtain ⟨el, hel⟩ := h.element hv.1
    obtain ⟨adj, hadj, hadj'⟩ := h.adjacent hv.1 (sub := insert v st.subgraph) (adj := st.adjacent.erase v) (by
      intro x hx
      rw [Finset.mem_erase] at hx
      have := hst.adj hx.2
      simp only [Finset.mem_sdiff, Finset.mem_insert, not_or] at this ⊢
      exact ⟨this.1, hx.1, this.2⟩)
    have hla := e2 a ha
    rw [dofAt_of hel] at hla
    unfold SubgraphState.Light at hl
    rw [DenseEnv.expand, DenseEnv.expandN, e1]
    simp only [ha, idx_of hel, ok_bind, hw (st.dof + el.dof) (by omega), hw (st.dof + el.dof - a) (by omega), hadj]
    split
    · exact ⟨rfl, fun r hr => by cases hr⟩
    · refine ih _ (fun w hw => hin w (by simp [hw])) (fun s hs => ?_)
      rcases List.mem_append.1 hs with hs | hs
      · exact hn s hs
      · rw [List.mem_singleton] at hs
        subst hs
        refine ⟨⟨hnext, hadj'⟩, ?_⟩
        show (st.dof + el.dof - a).natAbs ≤ ∑ u ∈ insert v st.subgraph, env.graph.load env.available u
        rw [sum_insert hv.2]
        omega

theorem searchN_eq (hw : narrow.Wide B) (h : env.Ok) (hB : ∑ v ∈ env.vertices, env.graph.load env.available v ≤ B) {ord : HashOrder}
    (hord : ord.Ok) (step : Nat) : ∀ (fuel : Nat) (q : List SubgraphState), (∀ s ∈ q, s.Ok env ∧ s.Light env) →
      env.searchN narrow ord step fuel q = env.search ord step fuel q := by
  intro fuel
  induction fuel with
  | zero => intro q _; cases q <;> rfl
  | succ fuel ih =>
    intro q hq
    cases q with
    | nil => rfl
    | cons st q =>
      obtain ⟨h1, h2⟩ := hq st (by simp)
      obtain ⟨e1, e2⟩ := expandN_eq hw h hB h1 h2 (ord (step :: 1 :: st.path) st.adjacent) []
        (fun v hv => ((hord _ _).2 v).1 hv) (by simp)
      rw [DenseEnv.searchN, DenseEnv.search, e1]
      cases hx : env.expand st (ord (step :: 1 :: st.path) st.adjacent) [] with
      | error e => rfl
      | ok x =>
        cases x with
        | inl s => rfl
        | inr new =>
          simp only [ok_bind]
          refine ih _ (fun s hs => ?_)
          rcases List.mem_append.1 hs with hs | hs
          · exact hq s (by simp [hs])
          · exact e2 new hx s hs

/-- Within the bound, the search with `i16` counts is the search with integers. -/
theorem denseBfsN_eq (hw : narrow.Wide B) (h : env.Ok) (hB : ∑ v ∈ env.vertices, env.graph.load env.available v ≤ B) {ord : HashOrder}
    (hord : ord.Ok) (step : Nat) : env.denseBfsN narrow ord step = env.denseBfs ord step := by
  rw [DenseEnv.denseBfsN, DenseEnv.denseBfs]
  cases hq : (ord [step, 0] env.vertices).mapM env.seed with
  | error e => rfl
  | ok q =>
    simp only [ok_bind]
    refine searchN_eq hw h hB hord step _ q (fun s hs => ?_)
    obtain ⟨v, hv, hsv⟩ := (mapM_members hq).1 s hs
    have hvV : v ∈ env.vertices := ((hord _ _).2 v).1 hv
    obtain ⟨el, hel⟩ := h.element hvV
    obtain ⟨adj, h4, h5⟩ := h.adjacent hvV (sub := {v}) (adj := ∅) (by simp)
    simp only [DenseEnv.seed, h4, idx_of hel, ok_bind, pure_eq_ok, Except.ok.injEq] at hsv
    subst hsv
    refine ⟨⟨by simpa using hvV, h5⟩, ?_⟩
    show el.dof.natAbs ≤ ∑ u ∈ {v}, env.graph.load env.available u
    rw [sum_singleton, DGraph.load, dofAt_of hel]
    omega

end

/-! ## The contraction -/

/-- The valencies of the edges of a set. -/
def DGraph.valTotal (g : DGraph) (es : Finset Nat) : Nat := ∑ e ∈ es, (valencyAt g e).natAbs

/-- The degrees of freedom of a set of vertices. -/
def DGraph.dofTotal (g : DGraph) (vs : Finset Nat) : Nat := ∑ v ∈ vs, (dofAt g v).natAbs

/-- What the loop over the edges of a vertex keeps, and its count: `L` is a bound of the edges it looks at. -/
structure EdgesInv (L : Nat) (st0 st : DState) (val : Int) : Prop where
  vertices : st.vertices = st0.vertices
  elements : st.graph.elements = st0.graph.elements
  length : st.graph.constraints.length = st0.graph.constraints.length
  valency : ∀ e, valencyAt st.graph e = valencyAt st0.graph e
  news : st.available.filter (L ≤ ·) = st0.available.filter (L ≤ ·)
  olds : val.natAbs + st0.graph.valTotal (st.available.filter (· < L)) ≤ st0.graph.valTotal (st0.available.filter (· < L))

theorem contractEdgesN_eq (hw : narrow.Wide B) {sub frontier : Finset Nat} {core L : Nat} {edges : List Nat} {st : DState}
    (hL : ∀ e ∈ edges, e < L) (hB : st.graph.valTotal (st.available.filter (· < L)) ≤ B) :
    contractEdgesN narrow sub frontier core edges st = contractEdges sub frontier core edges st ∧
      ∀ r, contractEdges sub frontier core edges st = .ok r → EdgesInv L st r.2 r.1 := by
  obtain ⟨h1, h2⟩ := foldlM_congr_inv (f := fun (bs : Int × DState) edgeId => do
      if edgeId ∉ bs.2.available then pure bs
      else
        let edge ← idx bs.2.graph.constraints edgeId
        if edge.incidentElements.all (fun u => decide (u ∈ sub)) then
          let new := mergeElements (fun u => !decide (u ∈ frontier)) core edge.incidentElements false
          if new.length = 2 then do
            let sum ← narrow (bs.1 + edge.valency)
            pure (sum, { bs.2 with available := bs.2.available.erase edgeId })
          else
            let cs ← setIdx bs.2.graph.constraints edgeId { edge with incidentElements := new }
            pure (bs.1, { bs.2 with graph := { bs.2.graph with constraints := cs } })
        else pure bs)
    (g := fun (bs : Int × DState) edgeId => do
      if edgeId ∉ bs.2.available then pure bs
      else
        let edge ← idx bs.2.graph.constraints edgeId
        if edge.incidentElements.all (fun u => decide (u ∈ sub)) then
          let new := mergeElements (fun u => !decide (u ∈ frontier)) core edge.incidentElements false
          if new.length = 2 then
            pure (bs.1 + edge.valency, { bs.2 with available := bs.2.available.erase edgeId })
          else
            let cs ← setIdx bs.2.graph.constraints edgeId { edge with incidentElements := new }
            pure (bs.1, { bs.2 with graph := { bs.2.graph with constraints := cs } })
        else pure bs)
    (fun bs l => EdgesInv L st bs.2 bs.1 ∧ ∀ e ∈ l, e < L)
    (by
      rintro ⟨val, s⟩ e l ⟨hI, hl⟩
      simp only
      by_cases hav : e ∉ s.available
      · rw [if_pos hav, if_pos hav]
      · rw [if_neg hav, if_neg hav]
        rw [not_not] at hav
        simp only [idx]
        cases hc : s.graph.constraints[e]? with
        | none => rfl
        | some c =>
          simp only [ok_bind]
          split
          · split
            · have hm : e ∈ s.available.filter (· < L) := by simp [hav, hl e]
              have h3 := hI.olds
              rw [DGraph.valTotal, ← add_sum_erase _ _ hm, ← hI.valency, valencyAt_of hc] at h3
              rw [hw _ (by omega)]
              rfl
            · rfl
          · rfl)
    (by
      rintro ⟨val, s⟩ e l ⟨val', s'⟩ ⟨hI, hl⟩ hg
      refine ⟨?_, fun x hx => hl x (by simp [hx])⟩
      simp only at hg hI ⊢
      by_cases hav : e ∉ s.available
      · rw [if_pos hav] at hg
        cases hg
        exact hI
      · rw [if_neg hav] at hg
        rw [not_not] at hav
        simp only [idx] at hg
        cases hc : s.graph.constraints[e]? with
        | none => rw [hc] at hg; cases hg
        | some c =>
          rw [hc] at hg
          simp only [ok_bind] at hg
          split at hg
          · split at hg
            · cases hg
              have hm : e ∈ s.available.filter (· < L) := by simp [hav, hl e]
              have h3 := hI.olds
              rw [DGraph.valTotal, ← add_sum_erase _ _ hm, ← hI.valency, valencyAt_of hc, ← filter_erase] at h3
              refine ⟨hI.vertices, hI.elements, hI.length, hI.valency, ?_, ?_⟩
              · simp only
                rw [filter_erase, erase_eq_of_notMem, hI.news]
                simp [hl e]
              · rw [DGraph.valTotal]
                simp only
                omega
            · rw [bind_eq_ok] at hg
              obtain ⟨cs, hcs, hg⟩ := hg
              rw [setIdx_eq_ok] at hcs
              obtain ⟨hlt, rfl⟩ := hcs
              cases hg
              refine ⟨hI.vertices, hI.elements, by simp [hI.length], fun x => ?_, hI.news, hI.olds⟩
              rw [← hI.valency x]
              simp only [valencyAt, List.getElem?_set]
              split
              · rename_i hx
                subst hx
                rw [hc]
                rfl
              · rfl
          · cases hg
            exact hI)
    edges (0, st) ⟨⟨rfl, rfl, rfl, fun _ => rfl, rfl, by simp⟩, hL⟩
  exact ⟨h1, fun r hr => (h2 r hr).1⟩

theorem count_pushed {l : List Nat} {e i : Nat} (h : e ≠ i) (p q : Prop) [Decidable p] [Decidable q] :
    (l ++ (if p then [i] else []) ++ (if q then [i] else [])).count e = l.count e := by
  split <;> split <;> simp [List.count_append, List.count_cons, Ne.symm h]

theorem set_inc {l : List DElement} {a : Nat} {x : DElement} (hx : l[a]? = some x) (id v : Nat) :
    (((l.set a { x with incidentConstraints := x.incidentConstraints ++ [id] })[v]?).map DElement.incidentConstraints).getD [] =
      (l[v]?.map DElement.incidentConstraints).getD [] ++ (if v = a then [id] else []) ∧
    (((l.set a { x with incidentConstraints := x.incidentConstraints ++ [id] })[v]?).map DElement.dof).getD 0 =
      (l[v]?.map DElement.dof).getD 0 := by
  rw [List.getElem?_set]
  by_cases hv : a = v
  · subst hv
    rw [if_pos rfl, if_pos (lt_of_getElem? hx), hx]
    simp
  · simp [hv, Ne.symm hv]

/-- What `addEdge` does to the lists of the vertices. -/
theorem addEdge_exact {g g' : DGraph} {val : Int} {a b id : Nat} (h : g.addEdge val a b = .ok (id, g')) :
    id = g.constraints.length ∧ g'.constraints = g.constraints ++ [⟨val, [a, b]⟩] ∧ g'.elements.length = g.elements.length ∧
      ∀ v, dofAt g' v = dofAt g v ∧ incAt g' v = incAt g v ++ (if v = a then [id] else []) ++ (if v = b then [id] else []) := by
  rw [DGraph.addEdge, bind_eq_ok] at h
  obtain ⟨i, hi, h⟩ := h
  rw [toU32_eq_ok] at hi
  obtain ⟨-, rfl⟩ := hi
  rw [bind_eq_ok] at h
  obtain ⟨ea, hea, h⟩ := h
  rw [idx_eq_ok] at hea
  rw [bind_eq_ok] at h
  obtain ⟨es1, hes1, h⟩ := h
  rw [setIdx_eq_ok] at hes1
  obtain ⟨-, rfl⟩ := hes1
  rw [bind_eq_ok] at h
  obtain ⟨eb, heb, h⟩ := h
  rw [idx_eq_ok] at heb
  rw [bind_eq_ok] at h
  obtain ⟨es2, hes2, h⟩ := h
  rw [setIdx_eq_ok] at hes2
  obtain ⟨-, rfl⟩ := hes2
  simp only [pure_eq_ok, Except.ok.injEq, Prod.mk.injEq] at h
  obtain ⟨rfl, rfl⟩ := h
  refine ⟨rfl, rfl, by simp, fun v => ?_⟩
  obtain ⟨h1, h2⟩ := set_inc heb g.constraints.length v
  obtain ⟨h3, h4⟩ := set_inc hea g.constraints.length v
  exact ⟨h2.trans h4, by unfold incAt; simp only; rw [h1, h3]⟩

/-- The loop over the frontier: `st0` is the state before, `F` the total freedom of the frontier, `rem` what is left. -/
structure VertexInv (core : Nat) (F : Nat) (st0 : DState) (cs : ContractState) (rem : List Nat) : Prop where
  vertices : cs.st.vertices = st0.vertices
  elems : cs.st.graph.elements.length = st0.graph.elements.length
  cons : st0.graph.constraints.length ≤ cs.st.graph.constraints.length
  dof : ∀ v, dofAt cs.st.graph v = dofAt st0.graph v
  olds : cs.totalIncomingValency.natAbs + cs.st.graph.valTotal (cs.st.available.filter (· < st0.graph.constraints.length)) ≤
    st0.graph.valTotal st0.available
  nonneg : 0 ≤ cs.totalIncomingValency
  news : cs.st.graph.valTotal (cs.st.available.filter (st0.graph.constraints.length ≤ ·)) ≤ cs.totalIncomingValency.natAbs
  total : cs.totalFrontierDof.natAbs + (rem.map (fun v => (dofAt st0.graph v).natAbs)).sum ≤ F
  nodup : rem.Nodup
  apart : core ∉ rem
  remInc : ∀ v ∈ rem, incAt cs.st.graph v = incAt st0.graph v
  oldList : ∀ e < st0.graph.constraints.length, ∀ v, (incAt cs.st.graph v).count e = (incAt st0.graph v).count e
  fresh : ∀ e, cs.st.graph.constraints.length ≤ e → ∀ v, (incAt cs.st.graph v).count e = 0
  newList : ∀ e, st0.graph.constraints.length ≤ e → ∃ w, ∀ v, (incAt cs.st.graph v).count e ≤ if v = w ∨ v = core then 1 else 0

theorem contractVertexN_eq (hw : narrow.Wide B) {sub frontier : Finset Nat} {core F v : Nat} {rem : List Nat} {st0 : DState} {cs : ContractState}
    (hr : ∀ v, ∀ e ∈ incAt st0.graph v, e < st0.graph.constraints.length) (hB : F + st0.graph.valTotal st0.available ≤ B)
    (hi : VertexInv core F st0 cs (v :: rem)) : contractVertexN narrow sub frontier core cs v = contractVertex sub frontier core cs v ∧
      ∀ cs', contractVertex sub frontier core cs v = .ok cs' → VertexInv core F st0 cs' rem := by
  rw [contractVertexN, contractVertex]
  cases hel : idx cs.st.graph.elements v with
  | error e => exact ⟨rfl, fun _ h => by cases h⟩
  | ok el =>
    rw [idx_eq_ok] at hel
    simp only [ok_bind]
    have hdof : dofAt st0.graph v = el.dof := by rw [← hi.dof, dofAt_of hel]
    have htot := hi.total
    rw [List.map_cons, List.sum_cons, hdof] at htot
    rw [hw (cs.totalFrontierDof + el.dof) (by omega), ok_bind]
    have hL : ∀ e ∈ el.incidentConstraints, e < st0.graph.constraints.length := by
      rw [← incAt_of hel, hi.remInc v (by simp)]
      exact hr v
    have holds := hi.olds
    obtain ⟨e1, e2⟩ := contractEdgesN_eq hw (sub := sub) (frontier := frontier) (core := core) (st := cs.st) hL (by omega)
    rw [e1]
    cases hce : contractEdges sub frontier core el.incidentConstraints cs.st with
    | error e => exact ⟨rfl, fun _ h => by cases h⟩
    | ok vs =>
      obtain ⟨val, st⟩ := vs
      have hE : EdgesInv _ cs.st st val := e2 _ hce
      simp only [ok_bind]
      have hdofst : ∀ u, dofAt st.graph u = dofAt cs.st.graph u := fun u => by rw [dofAt, dofAt, hE.elements]
      have hincst : ∀ u, incAt st.graph u = incAt cs.st.graph u := fun u => by rw [incAt, incAt, hE.elements]
      have hval : ∀ es, st.graph.valTotal es = cs.st.graph.valTotal es := fun es =>
        sum_congr rfl (fun e _ => by rw [hE.valency])
      have hEo := hE.olds
      have hnews := hi.news
      rw [← hE.news, ← hval] at hnews
      have hnn := hi.nonneg
      split
      · rename_i hpos
        rw [← hval] at hEo
        cases hae : st.graph.addEdge val v core with
        | error e => exact ⟨rfl, fun _ h => by cases h⟩
        | ok ig =>
          obtain ⟨id, g⟩ := ig
          simp only [ok_bind]
          rw [hw (cs.totalIncomingValency + val) (by omega), ok_bind]
          refine ⟨rfl, fun cs' h => ?_⟩
          cases h
          obtain ⟨hid, hcons, hlen, hall⟩ := addEdge_exact hae
          have hcl := hi.cons
          rw [← hE.length, ← hid] at hcl
          have hvc : v ≠ core := fun h => hi.apart (by simp [h])
          have hvalid : valencyAt g id = val := by
            rw [valencyAt, hcons, hid]
            simp
          have hvalne : ∀ e, e ≠ id → valencyAt g e = valencyAt st.graph e := by
            intro e he
            rw [valencyAt, valencyAt, hcons]
            rcases Nat.lt_or_ge e st.graph.constraints.length with h | h
            · rw [List.getElem?_append_left h]
            · rw [List.getElem?_eq_none h, List.getElem?_eq_none]
              simp only [List.length_append, List.length_singleton]
              omega
          have hfold : (insert id st.available).filter (· < st0.graph.constraints.length) =
              st.available.filter (· < st0.graph.constraints.length) := by
            rw [filter_insert, if_neg (by omega)]
          have hfnew : (insert id st.available).filter (st0.graph.constraints.length ≤ ·) =
              insert id (st.available.filter (st0.graph.constraints.length ≤ ·)) := by
            rw [filter_insert, if_pos hcl]
          have hgold : g.valTotal (st.available.filter (· < st0.graph.constraints.length)) =
              st.graph.valTotal (st.available.filter (· < st0.graph.constraints.length)) := by
            refine sum_congr rfl (fun e he => ?_)
            rw [hvalne e (by have := (mem_filter.1 he).2; omega)]
          have hgnew : g.valTotal (insert id (st.available.filter (st0.graph.constraints.length ≤ ·))) ≤
              val.natAbs + st.graph.valTotal (st.available.filter (st0.graph.constraints.length ≤ ·)) := by
            rw [DGraph.valTotal, ← add_sum_erase _ _ (mem_insert_self _ _), hvalid, erase_insert_eq_erase]
            apply Nat.add_le_add_left
            rw [sum_congr rfl (fun e he => by rw [hvalne e (ne_of_mem_erase he)])]
            exact sum_le_sum_of_subset (erase_subset _ _)
          refine ⟨hE.vertices.trans hi.vertices, ?_, ?_, ?_, ?_, by simp only; omega, ?_, ?_, (List.nodup_cons.1 hi.nodup).2,
            fun h => hi.apart (by simp [h]), ?_, ?_, ?_, ?_⟩
          · exact hlen.trans ((congrArg List.length hE.elements).trans hi.elems)
          · simp only [hcons, List.length_append]
            omega
          · intro u
            exact (hall u).1.trans ((hdofst u).trans (hi.dof u))
          · simp only
            rw [hfold, hgold]
            omega
          · simp only
            rw [hfnew]
            omega
          · simp only
            omega
          · intro u hu
            have hne : u ≠ v := fun h => (List.nodup_cons.1 hi.nodup).1 (h ▸ hu)
            have hnc : u ≠ core := fun h => hi.apart (by simp [← h, hu])
            show incAt g u = _
            rw [(hall u).2, if_neg hne, if_neg hnc, List.append_nil, List.append_nil, hincst]
            exact hi.remInc u (by simp [hu])
          · intro e he u
            show (incAt g u).count e = _
            rw [(hall u).2, hincst, ← hi.oldList e he u, count_pushed (by omega)]
          · intro e he u
            have he' : st.graph.constraints.length + 1 ≤ e := by
              have : g.constraints.length ≤ e := he
              rw [hcons] at this
              simpa using this
            show (incAt g u).count e = 0
            rw [(hall u).2, hincst, count_pushed (by omega)]
            exact hi.fresh e (by rw [← hE.length]; omega) u
          · intro e he
            by_cases heid : e = id
            · subst heid
              refine ⟨v, fun u => ?_⟩
              have h0 := hi.fresh e (by rw [← hE.length]; omega) u
              show (incAt g u).count e ≤ _
              rw [(hall u).2, hincst]
              by_cases huv : u = v
              · subst huv
                simp [h0, hvc]
              · by_cases huc : u = core
                · subst huc
                  simp [h0, huv]
                · simp [h0, huv, huc]
            · obtain ⟨w, hww⟩ := hi.newList e he
              refine ⟨w, fun u => ?_⟩
              have := hww u
              show (incAt g u).count e ≤ _
              rw [(hall u).2, hincst, count_pushed heid]
              exact this
      · refine ⟨rfl, fun cs' h => ?_⟩
        cases h
        have hEo' : st.graph.valTotal (st.available.filter (· < st0.graph.constraints.length)) ≤
            cs.st.graph.valTotal (cs.st.available.filter (· < st0.graph.constraints.length)) := by
          rw [hval]; omega
        refine ⟨hE.vertices.trans hi.vertices, (congrArg List.length hE.elements).trans hi.elems, ?_,
          fun u => (hdofst u).trans (hi.dof u), by simp only; omega, hi.nonneg, hnews, by simp only; omega, (List.nodup_cons.1 hi.nodup).2,
          fun h => hi.apart (by simp [h]), fun u hu => (hincst u).trans (hi.remInc u (by simp [hu])),
          fun e he u => by rw [hincst]; exact hi.oldList e he u,
          fun e he u => by rw [hincst]; exact hi.fresh e (by rw [← hE.length]; exact he) u,
          fun e he => ?_⟩
        · simp only [hE.length]
          exact hi.cons
        · obtain ⟨w, hww⟩ := hi.newList e he
          exact ⟨w, fun u => by rw [hincst]; exact hww u⟩

/-- Every edge is listed at most `m` times at the vertices. -/
def DGraph.Listed (g : DGraph) (vs : Finset Nat) (m : Nat) : Prop := ∀ e, ∑ v ∈ vs, (incAt g v).count e ≤ m

/-- The numbers that bound the counts. -/
def DState.bulk (st : DState) (d : Int) : Nat := st.graph.dofTotal st.vertices + st.graph.valTotal st.available + d.natAbs

theorem sum_list_of_finset (f : Nat → Nat) {l : List Nat} (hn : l.Nodup) {s : Finset Nat} (hs : ∀ x, x ∈ l ↔ x ∈ s) :
    (l.map f).sum = ∑ x ∈ s, f x := by
  rw [← List.sum_toFinset _ hn]
  congr 1
  ext x
  simp [hs]

theorem contractN_eq (hw : narrow.Wide B) {d : Int} {ord : HashOrder} (hord : ord.Ok) {step key : Nat} {sub frontier : Finset Nat}
    {core : List Nat} {st : DState} (hr : st.graph.InRange) (hv : ∀ v ∈ st.vertices, v < st.graph.elements.length)
    (hf : frontier ⊆ st.vertices) (hB : st.bulk d ≤ B) {m : Nat} (hm : 2 ≤ m) (hl : st.graph.Listed st.vertices m) :
    contractN narrow d ord step key sub frontier core st = contract d ord step key sub frontier core st ∧
      ∀ st', contract d ord step key sub frontier core st = .ok st' → st'.graph.Listed st'.vertices m ∧
        st'.vertices ⊆ insert st.graph.elements.length (st.vertices \ core.toFinset) ∧
        st'.graph.valTotal st'.available ≤ st.graph.valTotal st.available ∧
        (st'.bulk d ≤ st.bulk d ∨ frontier.Nonempty ∧ st'.bulk d ≤ 2 * st.bulk d) := by
  rw [contractN, contract]
  cases hid : toU32 st.graph.elements.length with
  | error e => exact ⟨rfl, fun _ h => by cases h⟩
  | ok coreId =>
    rw [toU32_eq_ok] at hid
    obtain ⟨-, rfl⟩ := hid
    simp only [ok_bind]
    obtain ⟨st1, hst1⟩ : ∃ st1, st1 = replaceCore key core st.graph.elements.length st := ⟨_, rfl⟩
    rw [← hst1]
    rw [replaceCore] at hst1
    obtain ⟨c, hc⟩ : ∃ c, c = st.graph.elements.length := ⟨_, rfl⟩
    rw [← hc]
    have k1 : st1.available = st.available := by rw [hst1]
    have k2 : st1.graph.constraints = st.graph.constraints := by rw [hst1]
    have k3 : st1.vertices = insert c (st.vertices \ core.toFinset) := by rw [hst1, hc]
    have hat : ∀ v : Nat, st1.graph.elements[v]? = if v = c then some ⟨0, []⟩ else st.graph.elements[v]? := by
      intro v
      rw [hst1, hc]
      simp only
      rcases Nat.lt_trichotomy v st.graph.elements.length with h | h | h
      · rw [List.getElem?_append_left h, if_neg (by omega)]
      · subst h; simp
      · rw [if_neg (by omega), List.getElem?_eq_none (by simp; omega), List.getElem?_eq_none (by omega)]
    have hdof1 : ∀ v, dofAt st1.graph v = dofAt st.graph v := by
      intro v
      rw [dofAt, dofAt, hat]
      split
      · rename_i h
        rw [h, hc, List.getElem?_eq_none (Nat.le_refl _)]
        rfl
      · rfl
    have hinc1 : ∀ v, incAt st1.graph v = incAt st.graph v := by
      intro v
      rw [incAt, incAt, hat]
      split
      · rename_i h
        rw [h, hc, List.getElem?_eq_none (Nat.le_refl _)]
        rfl
      · rfl
    have hinc : ∀ v, ∀ e ∈ incAt st.graph v, e < st.graph.constraints.length := by
      intro v e he
      rw [incAt] at he
      cases h : st.graph.elements[v]? with
      | none => rw [h] at he; simp at he
      | some el => rw [h] at he; exact hr.inc v el h e he
    have hcd : dofAt st.graph c = 0 := by rw [dofAt, hc, List.getElem?_eq_none (Nat.le_refl _)]; rfl
    have hci : incAt st.graph c = [] := by rw [incAt, hc, List.getElem?_eq_none (Nat.le_refl _)]; rfl
    have hval1 : ∀ es, st1.graph.valTotal es = st.graph.valTotal es := fun es =>
      sum_congr rfl (fun e _ => by rw [valencyAt, valencyAt, k2])
    have hcf : c ∉ frontier := fun h => by have := hv c (hf h); omega
    have hmem := hord [step, 4] frontier
    have hF : st.graph.dofTotal frontier ≤ st.graph.dofTotal st.vertices := sum_le_sum_of_subset hf
    unfold DState.bulk at hB ⊢
    obtain ⟨h1, h2⟩ := foldlM_congr_inv (f := contractVertexN narrow sub frontier c) (g := contractVertex sub frontier c)
      (VertexInv c (st.graph.dofTotal frontier) st1)
      (fun cs v l hI => (contractVertexN_eq hw (fun u e he => by rw [hinc1] at he; rw [k2]; exact hinc u e he)
        (by rw [hval1, k1]; omega) hI).1)
      (fun cs v l cs' hI h => (contractVertexN_eq hw (sub := sub) (frontier := frontier)
        (fun u e he => by rw [hinc1] at he; rw [k2]; exact hinc u e he) (by rw [hval1, k1]; omega) hI).2 cs' h)
      (ord [step, 4] frontier) ⟨st1, 0, 0⟩ (by
        refine ⟨rfl, rfl, Nat.le_refl _, fun _ => rfl, ?_, le_refl _, ?_, ?_, hmem.1, fun h => hcf ((hmem.2 c).1 h), fun _ _ => rfl,
          fun _ _ _ => rfl, fun e he v => ?_, fun e he => ⟨0, fun v => ?_⟩⟩
        · simp only [Int.natAbs_zero, Nat.zero_add]
          exact sum_le_sum_of_subset (filter_subset _ _)
        · simp only [Int.natAbs_zero, Nat.le_zero]
          refine sum_eq_zero (fun e he => ?_)
          rw [valencyAt, List.getElem?_eq_none (mem_filter.1 he).2]
          rfl
        · simp only [Int.natAbs_zero, Nat.zero_add]
          rw [sum_list_of_finset _ hmem.1 hmem.2]
          exact le_of_eq (sum_congr rfl (fun v _ => by rw [hdof1]))
        · rw [List.count_eq_zero]
          intro h
          rw [hinc1] at h
          have := hinc v e h
          simp only [k2] at he
          omega
        · have h0 : (incAt st1.graph v).count e = 0 := by
            rw [List.count_eq_zero]
            intro h
            rw [hinc1] at h
            have := hinc v e h
            rw [k2] at he
            omega
          simp only [h0]
          omega)
    rw [h1]
    cases hfo : (ord [step, 4] frontier).foldlM (contractVertex sub frontier c) ⟨st1, 0, 0⟩ with
    | error e => exact ⟨rfl, fun _ h => by cases h⟩
    | ok cs =>
      have hI := h2 cs hfo
      simp only [ok_bind]
      have hold := hI.olds
      rw [hval1, k1] at hold
      have hnew := hI.news
      have htot := hI.total
      simp only [List.map_nil, List.sum_nil, Nat.add_zero] at htot
      have hnn := hI.nonneg
      have hsplit : cs.st.graph.valTotal cs.st.available =
          cs.st.graph.valTotal (cs.st.available.filter (· < st1.graph.constraints.length)) +
          cs.st.graph.valTotal (cs.st.available.filter (st1.graph.constraints.length ≤ ·)) := by
        rw [DGraph.valTotal, ← sum_filter_add_sum_filter_not _ (· < st1.graph.constraints.length)]
        simp only [not_lt]
        rfl
      have hV : cs.st.vertices = insert c (st.vertices \ core.toFinset) := hI.vertices.trans k3
      have hcV : c ∉ st.vertices \ core.toFinset := fun h => by have := hv c (mem_sdiff.1 h).1; omega
      have hrest : ∑ v ∈ st.vertices \ core.toFinset, (dofAt cs.st.graph v).natAbs ≤ st.graph.dofTotal st.vertices := by
        rw [sum_congr rfl (fun v _ => by rw [hI.dof v, hdof1 v])]
        exact sum_le_sum_of_subset sdiff_subset
      have hlist : ∀ V ⊆ insert c (st.vertices \ core.toFinset), cs.st.graph.Listed V m := by
        intro V hVs e
        refine (sum_le_sum_of_subset hVs).trans ?_
        rcases Nat.lt_or_ge e st1.graph.constraints.length with he | he
        · rw [sum_congr rfl (fun v _ => by rw [hI.oldList e he v, hinc1 v]), sum_insert hcV, hci, List.count_nil, Nat.zero_add]
          exact (sum_le_sum_of_subset sdiff_subset).trans (hl e)
        · obtain ⟨w, hww⟩ := hI.newList e he
          refine (sum_le_sum (fun v _ => hww v)).trans ?_
          rw [← card_filter]
          refine le_trans (card_le_card (t := {w, c}) (fun v hv => ?_)) (card_le_two.trans hm)
          simpa using (mem_filter.1 hv).2
      split
      · rename_i hpos
        have hne : frontier.Nonempty := by
          by_contra hne
          rw [not_nonempty_iff_eq_empty] at hne
          have hnil : ord [step, 4] frontier = [] := by
            rw [List.eq_nil_iff_forall_not_mem]
            intro x hx
            have := (hmem.2 x).1 hx
            rw [hne] at this
            simp at this
          rw [hnil] at hfo
          cases hfo
          simp at hpos
        cases hel : idx cs.st.graph.elements c with
        | error e => exact ⟨rfl, fun _ h => by cases h⟩
        | ok el =>
          simp only [ok_bind]
          rw [hw (cs.totalFrontierDof - cs.totalIncomingValency) (by omega), ok_bind,
            hw (cs.totalFrontierDof - cs.totalIncomingValency - d) (by omega), ok_bind]
          refine ⟨rfl, fun st' h => ?_⟩
          rw [bind_eq_ok] at h
          obtain ⟨es, hes, h⟩ := h
          rw [setIdx_eq_ok] at hes
          obtain ⟨hlt, rfl⟩ := hes
          cases h
          rw [idx_eq_ok] at hel
          have hinc' : ∀ v, incAt { cs.st.graph with elements := cs.st.graph.elements.set c { el with dof := cs.totalFrontierDof - cs.totalIncomingValency - d } } v = incAt cs.st.graph v := by
            intro v
            rw [incAt, incAt]
            simp only [List.getElem?_set]
            split
            · rename_i h
              subst h
              rw [hel]
              simp
            · rfl
          have hdof' : ∀ v, dofAt { cs.st.graph with elements := cs.st.graph.elements.set c { el with dof := cs.totalFrontierDof - cs.totalIncomingValency - d } } v =
              if v = c then cs.totalFrontierDof - cs.totalIncomingValency - d else dofAt cs.st.graph v := by
            intro v
            rw [dofAt]
            simp only [List.getElem?_set]
            by_cases hvc : c = v
            · subst hvc
              simp [hlt]
            · rw [if_neg hvc, if_neg (Ne.symm hvc)]
              rfl
          have hval' : ∀ es, DGraph.valTotal { cs.st.graph with elements := cs.st.graph.elements.set c { el with dof := cs.totalFrontierDof - cs.totalIncomingValency - d } } es = cs.st.graph.valTotal es :=
            fun es => rfl
          refine ⟨fun e => ?_, Eq.subset hV, ?_, .inr ⟨hne, ?_⟩⟩
          · simp only [hinc', hV]
            exact hlist _ Subset.rfl e
          · simp only [hval']
            omega
          · simp only [hval']
            have hs : ∑ v ∈ st.vertices \ core.toFinset, (dofAt { cs.st.graph with elements := cs.st.graph.elements.set c { el with dof := cs.totalFrontierDof - cs.totalIncomingValency - d } } v).natAbs =
                ∑ v ∈ st.vertices \ core.toFinset, (dofAt cs.st.graph v).natAbs :=
              sum_congr rfl (fun v hv => by rw [hdof', if_neg (by rintro rfl; exact hcV hv)])
            rw [DGraph.dofTotal, hV, sum_insert hcV, hdof', if_pos rfl, hs]
            omega
      · rename_i hpos
        refine ⟨rfl, fun st' h => ?_⟩
        cases h
        simp only [hV]
        refine ⟨hlist _ (erase_subset _ _), erase_subset _ _, by omega, .inl ?_⟩
        rw [erase_insert hcV]
        unfold DGraph.dofTotal at hrest ⊢
        omega

/-! ## The steps -/

theorem DGraph.valTotal_mono (g : DGraph) {a b : Finset Nat} (h : a ⊆ b) : g.valTotal a ≤ g.valTotal b := sum_le_sum_of_subset h

/-- The bound that is kept: a contraction at most doubles `bulk` and removes a vertex. -/
structure DState.Bounded (d : Int) (m M E : Nat) (st : DState) : Prop where
  listed : st.graph.Listed st.vertices m
  bulk : st.bulk d * 2 ^ (st.vertices.card - 2) ≤ M
  vals : st.graph.valTotal st.available ≤ E

theorem assembleStepN_eq (hw : narrow.Wide B) {cx : DCtx} {d : Int} {ord : HashOrder} (hord : ord.Ok) {step : Nat}
    {sub : Finset Nat} {st : DState} (hi : st.Inv cx) (hsub : sub ⊆ st.vertices) {m M E : Nat} (hm : 2 ≤ m) (hM : M ≤ B)
    (hb : st.Bounded d m M E) :
    assembleStepN narrow d ord cx.nE cx.nC step sub st = assembleStep d ord cx.nE cx.nC step sub st ∧
      ∀ st', assembleStep d ord cx.nE cx.nC step sub st = .ok st' → st'.Bounded d m M E := by
  rw [assembleStepN, assembleStep]
  cases hsc : (ord [step, 2] sub).foldlM (scanVertex cx.nE cx.nC step sub) ⟨st, [], ∅, []⟩ with
  | error e => exact ⟨rfl, fun _ h => by cases h⟩
  | ok sc =>
    simp only [ok_bind]
    have hs : ScanInv cx.nE cx.nC st sub (ord [step, 2] sub) sc := by
      have := ScanInv.fold (ord [step, 2] sub) [] _ _ (ScanInv.init hi.clean.1 hi.clean.2) (by simpa using (hord _ _).1) hsc
      simpa using this
    have hdone : ∀ v, v ∈ ord [step, 2] sub ↔ v ∈ sub := (hord _ _).2
    obtain ⟨st3, hst3⟩ : ∃ st3, st3 = claimFixes step sc.core (emitStep sc.realElements sc.st) := ⟨_, rfl⟩
    rw [← hst3]
    have g3 : st3.graph = st.graph ∧ st3.vertices = st.vertices ∧ st3.available = st.available ∧ st3.blocked = st.blocked := by
      rw [hst3, claimFixes, emitStep]
      split <;> split <;> exact ⟨hs.graph, hs.vertices, hs.available, hs.blocked⟩
    obtain ⟨m1, m2, m3, m4⟩ := g3
    cases hmc : sc.core.foldlM (mergeCore cx.nE step sc.core) st3 with
    | error e => exact ⟨rfl, fun _ h => by cases h⟩
    | ok st4 =>
      simp only [ok_bind]
      have hme := mergeCore_fold hmc
      obtain ⟨n1, n2, n3⟩ := markFrontier_fold (nE := cx.nE) (key := step) (ord [step, 3] sc.frontier) st4
      obtain ⟨st5, hst5⟩ : ∃ st5, st5 = (ord [step, 3] sc.frontier).foldl (markFrontier cx.nE step) st4 := ⟨_, rfl⟩
      rw [← hst5] at n1 n2 n3 ⊢
      have hg5 : st5.graph = st.graph := by rw [n2, hme.graph, m1]
      have hv5 : st5.vertices = st.vertices := (hme.same.trans n1).vertices.trans m2
      have hb5 : st5.blocked = st.blocked := (hme.same.trans n1).blocked.trans m4
      have ha5 : st5.available ⊆ st.available := by
        intro e he
        rw [n3] at he
        rw [← m3]
        exact hme.sub e he
      have hfr : sc.frontier ⊆ st.vertices := fun v hv => hsub ((hdone v).1 ((hs.part v).1 (.inr hv)))
      have hval := st.graph.valTotal_mono ha5
      have hbulk5 : st5.bulk d ≤ st.bulk d := by
        rw [DState.bulk, DState.bulk, hg5, hv5]
        omega
      split
      · refine ⟨rfl, fun st' h => ?_⟩
        cases h
        refine ⟨?_, ?_, ?_⟩
        · simp only [hg5, hv5]; exact hb.listed
        · refine le_trans (Nat.mul_le_mul ?_ (by simp only [hv5]; exact le_refl _)) hb.bulk
          exact hbulk5
        · simp only [hg5]; exact hval.trans hb.vals
      · rename_i hcard
        have hpow : 1 ≤ 2 ^ (st.vertices.card - 2) := Nat.one_le_pow _ _ (by omega)
        have hle : st.bulk d ≤ M := le_trans (Nat.le_mul_of_pos_right _ hpow) hb.bulk
        obtain ⟨e1, e2⟩ := contractN_eq hw (d := d) hord (step := step) (key := step) (sub := sub) (frontier := sc.frontier) (core := sc.core)
          (st := st5) (by rw [hg5]; exact hi.graph.range) (by rw [hg5, hv5]; exact hi.verts) (by rw [hv5]; exact hfr) (by omega) hm
          (by rw [hg5, hv5]; exact hb.listed)
        refine ⟨e1, fun st' h => ?_⟩
        obtain ⟨q1, q0, q2, q3⟩ := e2 st' h
        rw [hg5] at q2
        rw [hg5, hv5] at q0
        have hlen : (ord [step, 2] sub).length = sub.card := by
          rw [← List.toFinset_card_of_nodup (hord [step, 2] sub).1]
          congr 1
          ext x
          simp [hdone]
        have hsize := hs.size
        rw [hlen] at hsize
        have hcorecard : 2 ≤ sc.core.toFinset.card := by
          rw [List.toFinset_card_of_nodup hs.coreNodup]
          omega
        have hcoresub : sc.core.toFinset ⊆ st.vertices := fun v hv =>
          hsub ((hdone v).1 ((hs.part v).1 (.inl (List.mem_toFinset.1 hv))))
        have hcv : st'.vertices.card + 1 ≤ st.vertices.card := by
          have h1 := card_le_card q0
          have h2 := card_insert_le st.graph.elements.length (st.vertices \ sc.core.toFinset)
          have h3 := card_sdiff_of_subset hcoresub
          have h4 := card_le_card hcoresub
          omega
        refine ⟨q1, ?_, (q2.trans hval).trans hb.vals⟩
        rcases q3 with q3 | ⟨hne, q3⟩
        · refine le_trans (Nat.mul_le_mul (q3.trans hbulk5) (Nat.pow_le_pow_right (by omega) (by omega))) hb.bulk
        · have h3 : 3 ≤ st.vertices.card := by
            have h4 := card_le_card hsub
            have h5 := hne.card_pos
            rw [List.toFinset_card_of_nodup hs.coreNodup] at hcorecard
            omega
          obtain ⟨k, hk⟩ : ∃ k, st.vertices.card - 2 = k + 1 := ⟨st.vertices.card - 3, by omega⟩
          refine le_trans ?_ hb.bulk
          rw [hk, Nat.pow_succ]
          have h6 : 2 ^ (st'.vertices.card - 2) ≤ 2 ^ k := Nat.pow_le_pow_right (by omega) (by omega)
          calc st'.bulk d * 2 ^ (st'.vertices.card - 2) ≤ (2 * st.bulk d) * 2 ^ k := Nat.mul_le_mul (by omega) h6
            _ = st.bulk d * (2 ^ k * 2) := by ring

theorem load_total {g : DGraph} {V E : Finset Nat} {m : Nat} (hl : g.Listed V m) :
    ∑ v ∈ V, g.load E v ≤ g.dofTotal V + m * g.valTotal E := by
  unfold DGraph.load
  rw [sum_add_distrib]
  apply Nat.add_le_add_left
  have h1 : ∀ v, (((incAt g v).filter (fun e => decide (e ∈ E))).map (fun e => (valencyAt g e).natAbs)).sum =
      ∑ e ∈ E, (incAt g v).count e * (valencyAt g e).natAbs := by
    intro v
    rw [Finset.sum_list_map_count]
    refine (sum_subset (fun e he => ?_) (fun e he hn => ?_)).trans (sum_congr rfl (fun e he => ?_))
    · simpa using (List.mem_filter.1 (List.mem_toFinset.1 he)).2
    · rw [List.mem_toFinset] at hn
      rw [List.count_eq_zero_of_not_mem hn]
      simp
    · rw [List.count_filter (by simpa using he)]
      simp
  rw [sum_congr rfl (fun v _ => h1 v), sum_comm, DGraph.valTotal, mul_sum]
  refine sum_le_sum (fun e _ => ?_)
  rw [← sum_mul]
  exact Nat.mul_le_mul_right _ (hl e)

theorem decomposeLoopN_eq (hw : narrow.Wide B) {cx : DCtx} (hcx : cx.Ok) {d : Int} {ord : HashOrder} (hord : ord.Ok) {m M E : Nat}
    (hm : 2 ≤ m) (hM : M + (m - 1) * E ≤ B) : ∀ (fuel step : Nat) (st : DState), st.Inv cx → st.Bounded d m M E →
      decomposeLoopN narrow d ord cx.nE cx.nC fuel step st = decomposeLoop d ord cx.nE cx.nC fuel step st := by
  intro fuel
  induction fuel with
  | zero => intro step st _ _; rfl
  | succ fuel ih =>
    intro step st hi hb
    rw [decomposeLoopN, decomposeLoop]
    have hload : ∑ v ∈ st.vertices, st.graph.load st.available v ≤ B := by
      have h1 := load_total (E := st.available) hb.listed
      have h2 : st.bulk d ≤ M := le_trans (Nat.le_mul_of_pos_right _ (Nat.one_le_pow _ _ (by omega))) hb.bulk
      rw [DState.bulk] at h2
      have h3 := Nat.mul_le_mul_left (m - 1) hb.vals
      have h4 : m * st.graph.valTotal st.available = (m - 1) * st.graph.valTotal st.available + st.graph.valTotal st.available := by
        obtain ⟨k, rfl⟩ : ∃ k, m = k + 1 := ⟨m - 1, by omega⟩
        rw [Nat.add_sub_cancel]; ring
      omega
    obtain ⟨r, h1, h2⟩ := (hi.env (-(d + 1))).denseBfs hord step
    rw [denseBfsN_eq hw (hi.env (-(d + 1))) hload hord step, h1]
    simp only [ok_bind]
    cases r with
    | none => rfl
    | some sub =>
      obtain ⟨e1, e2⟩ := assembleStepN_eq hw hord (step := step) hi (h2 sub rfl).1 hm (by omega) hb
      simp only
      rw [e1]
      cases h3 : assembleStep d ord cx.nE cx.nC step sub st with
      | error e => rfl
      | ok st' =>
        simp only [ok_bind]
        exact ih _ _ (assembleStep_inv hcx hord hi (h2 sub rfl).1 h3).1 (e2 st' h3)

/-- Within the bound, `decompose` with `i16` counts is `decompose` with integers. -/
theorem decomposeN_eq (hw : narrow.Wide B) {cx : DCtx} (hcx : cx.Ok) {d : Int} {ord : HashOrder} (hord : ord.Ok) {m : Nat} (hm : 2 ≤ m)
    (hl : cx.g.Listed cx.vertices m)
    (hB : (cx.g.dofTotal cx.vertices + cx.g.valTotal cx.edges + d.natAbs) * 2 ^ (cx.vertices.card - 2) + (m - 1) * cx.g.valTotal cx.edges ≤ B) :
    decomposeN narrow d ord cx.g cx.vertices cx.edges = decompose d ord cx.g cx.vertices cx.edges := by
  rw [decomposeN, decompose]
  cases h1 : toU32 cx.g.constraints.length with
  | error e => rfl
  | ok nc =>
    cases h2 : toU32 cx.g.elements.length with
    | error e => rfl
    | ok ne =>
      rw [toU32_eq_ok] at h1 h2
      obtain ⟨-, rfl⟩ := h1
      obtain ⟨-, rfl⟩ := h2
      exact decomposeLoopN_eq hw hcx hord hm hB _ _ _ (DState.Inv.init hcx) ⟨hl, le_refl _, le_refl _⟩

end Fiksi
