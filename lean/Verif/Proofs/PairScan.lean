import Verif.Proofs.OwnedOnce
import Verif.Proofs.DenseExact
/-! # More on one step of `decompose`: what scanning, claiming, merging and marking do to the maps of a state -/
namespace Fiksi
open Spec

/-- The three maps that go into recombination steps. -/
def DState.maps (st : DState) : IMap Nat (List Nat) × IMap Nat (List Nat) × IMap Nat (List Nat) :=
  (st.onFrontiers, st.ownedElements, st.frontierElements)

/-- More of what is known after scanning the vertices in `done`. -/
structure ScanMore (nE key : Nat) (st0 : DState) (sub : Finset Nat) (done : List Nat) (sc : ScanState) : Prop where
  graph : sc.st.graph = st0.graph
  available : sc.st.available = st0.available
  maps : sc.st.maps = st0.maps
  leaves : ∀ v ∈ sc.frontier, ∃ el, st0.graph.elements[v]? = some el ∧ ∃ e ∈ el.incidentConstraints, e ∈ st0.available ∧
    ∃ c, st0.graph.constraints[e]? = some c ∧ ∃ u ∈ c.incidentElements, u ∉ sub
  seen : ∀ v ∈ done, v < nE → v ∈ sc.st.verticesHandled
  own : ∀ v, v ∈ sc.st.verticesHandled → v ∈ st0.verticesHandled ∨ sc.st.owningCluster.get? v = some key

theorem ScanMore.step {nE nC key : Nat} {st0 : DState} {sub : Finset Nat} {done : List Nat} {sc sc' : ScanState} {v : Nat}
    (h : ScanMore nE key st0 sub done sc) (hs : scanVertex nE nC key sub sc v = .ok sc') :
    ScanMore nE key st0 sub (done ++ [v]) sc' := by
  rw [scanVertex] at hs
  obtain ⟨real, hrd⟩ : ∃ real, real = if v < nE then sc.realElements ++ [v] else sc.realElements := ⟨_, rfl⟩
  obtain ⟨st, hsd⟩ : ∃ st, st = noteVertex nE key sc.st v := ⟨_, rfl⟩
  rw [← hsd] at hs
  rw [noteVertex] at hsd
  have hgraph : st.graph = st0.graph := by rw [← h.graph, hsd]; split <;> rfl
  have havail : st.available = st0.available := by rw [← h.available, hsd]; split <;> rfl
  have hmaps : st.maps = st0.maps := by rw [← h.maps, hsd]; split <;> rfl
  have hseen : ∀ w ∈ done ++ [v], w < nE → w ∈ st.verticesHandled := by
    intro w hw hlt
    rw [hsd]
    rcases List.mem_append.1 hw with hw | hw
    · have := h.seen w hw hlt
      split
      · exact Finset.mem_insert_of_mem this
      · exact this
    · rw [List.mem_singleton] at hw
      subst hw
      split
      · exact Finset.mem_insert_self _ _
      · rename_i hn
        by_contra hc
        exact hn ⟨hlt, hc⟩
  have hown : ∀ w, w ∈ st.verticesHandled → w ∈ st0.verticesHandled ∨ st.owningCluster.get? w = some key := by
    intro w hw
    rw [hsd] at hw ⊢
    split at hw <;> rename_i hc
    · rw [if_pos hc]
      by_cases hwv : w = v
      · subst hwv
        exact .inr (IMap.get?_insert_self _ _ _)
      · simp only at hw ⊢
        rw [IMap.get?_insert_ne _ _ hwv]
        exact h.own w ((Finset.mem_insert.1 hw).resolve_left hwv)
    · rw [if_neg hc]
      exact h.own w hw
  clear hsd
  rw [bind_eq_ok] at hs
  obtain ⟨edges, he, hs⟩ := hs
  rw [DGraph.availableAt, bind_eq_ok] at he
  obtain ⟨el, hel, he⟩ := he
  rw [idx_eq_ok, hgraph] at hel
  simp only [pure_eq_ok, Except.ok.injEq] at he
  rw [bind_eq_ok] at hs
  obtain ⟨⟨b, st1⟩, h1, hs⟩ := hs
  have key1 := foldlM_inv (fun bs : Bool × DState => bs.2.graph = st0.graph ∧ bs.2.available = st0.available ∧ bs.2.maps = st0.maps ∧
      bs.2.verticesHandled = st.verticesHandled ∧ bs.2.owningCluster = st.owningCluster ∧
      (bs.1 = true → ∃ e ∈ edges, ∃ c, st0.graph.constraints[e]? = some c ∧ ∃ u ∈ c.incidentElements, u ∉ sub)) _ _ _ _
    ⟨hgraph, havail, hmaps, rfl, rfl, by simp⟩ (by
      rintro ⟨b, s⟩ e ⟨b', s'⟩ hee ⟨i1, i2, i3, i4, i5, i6⟩ hs'
      rw [bind_eq_ok] at hs'
      obtain ⟨c, hc, hs'⟩ := hs'
      rw [idx_eq_ok, i1] at hc
      split at hs'
      · split at hs'
        · cases hs'; exact ⟨i1, i2, i3, i4, i5, i6⟩
        · cases hs'; exact ⟨i1, i2, i3, i4, i5, i6⟩
      · rename_i hn
        cases hs'
        refine ⟨i1, i2, i3, i4, i5, fun _ => ⟨e, hee, c, hc, ?_⟩⟩
        simpa using hn) h1
  obtain ⟨i1, i2, i3, i4, i5, i6⟩ := key1
  simp only at i1 i2 i3 i4 i5 i6 hs
  split at hs
  · rename_i hb
    cases hs
    refine ⟨i1, i2, i3, ?_, fun w hw hlt => by rw [i4]; exact hseen w hw hlt, fun w hw => by rw [i4] at hw; rw [i5]; exact hown w hw⟩
    intro w hw
    rcases Finset.mem_insert.1 hw with rfl | hw
    · obtain ⟨e, he', c, hc, u, hu⟩ := i6 hb
      rw [← he, List.mem_filter] at he'
      refine ⟨el, hel, e, he'.1, ?_, c, hc, u, hu⟩
      have := of_decide_eq_true he'.2
      rwa [havail] at this
    · exact h.leaves w hw
  · cases hs
    exact ⟨i1, i2, i3, h.leaves, fun w hw hlt => by rw [i4]; exact hseen w hw hlt, fun w hw => by rw [i4] at hw; rw [i5]; exact hown w hw⟩

theorem ScanMore.fold {nE nC key : Nat} {st0 : DState} {sub : Finset Nat} : ∀ (l done : List Nat) (sc sc' : ScanState),
    ScanMore nE key st0 sub done sc → l.foldlM (scanVertex nE nC key sub) sc = .ok sc' → ScanMore nE key st0 sub (done ++ l) sc' := by
  intro l
  induction l with
  | nil =>
    intro done sc sc' h hs
    simp only [List.foldlM_nil, pure_eq_ok, Except.ok.injEq] at hs
    subst hs
    simpa using h
  | cons v l ih =>
    intro done sc sc' h hs
    rw [List.foldlM_cons, bind_eq_ok] at hs
    obtain ⟨sc1, h1, h2⟩ := hs
    simpa using ih (done ++ [v]) sc1 sc' (h.step h1) h2

theorem ScanMore.init {nE key : Nat} {st0 : DState} {sub : Finset Nat} : ScanMore nE key st0 sub [] ⟨st0, [], ∅, []⟩ :=
  ⟨rfl, rfl, rfl, by simp, by simp, fun _ h => .inl h⟩

theorem IMap.get?_erase {κ α : Type} [DecidableEq κ] (m : IMap κ α) (k k' : κ) : (m.erase k).get? k' = if k' = k then none else m.get? k' := by
  induction m with
  | nil => simp [IMap.erase]
  | cons p m ih =>
    rw [IMap.erase] at ih ⊢
    by_cases h : p.1 = k
    · rw [List.filter_cons_of_neg (by simpa using h), ih, IMap.get?_cons]
      by_cases hk : k' = k
      · simp [hk]
      · rw [if_neg hk, if_neg hk, if_neg (fun hc => hk (hc.symm.trans h))]
    · rw [List.filter_cons_of_pos (by simpa using h), IMap.get?_cons, IMap.get?_cons, ih]
      by_cases hk : k' = k
      · rw [if_pos hk, if_pos hk, if_neg (fun hc => h (hc.trans hk))]
      · rw [if_neg hk, if_neg hk]

/-- A vertex of the core that belongs to the current cluster is only removed from the frontiers. -/
theorem mergeCore_own {nE key : Nat} {core : List Nat} {st st' : DState} {v : Nat} (hown : st.owningCluster.get? v = some key)
    (h : mergeCore nE key core st v = .ok st') :
    st'.maps = (st.onFrontiers.erase v, st.ownedElements, st.frontierElements) ∧ st'.owningCluster = st.owningCluster.insert v key := by
  rw [mergeCore, bind_eq_ok] at h
  obtain ⟨st1, h1, h⟩ := h
  have e1 : st1.maps = st.maps ∧ st1.owningCluster = st.owningCluster := by
    split at h1
    · rw [bind_eq_ok] at h1
      obtain ⟨el, -, h1⟩ := h1
      rw [bind_eq_ok] at h1
      obtain ⟨av, -, h1⟩ := h1
      cases h1
      exact ⟨rfl, rfl⟩
    · cases h1; exact ⟨rfl, rfl⟩
  obtain ⟨e1, e2⟩ := e1
  rw [bind_eq_ok] at h
  obtain ⟨old, ho, h⟩ := h
  rw [unwrap_eq_ok, e2, hown] at ho
  cases ho
  rw [bind_eq_ok] at h
  obtain ⟨st2, h2, h⟩ := h
  rw [if_neg (by simp)] at h2
  cases h2
  cases h
  simp only [DState.maps, Prod.mk.injEq] at e1 ⊢
  exact ⟨⟨by rw [e1.1], e1.2.1, e1.2.2⟩, by rw [e2]⟩

theorem mergeCore_own_fold {nE key : Nat} {core : List Nat} : ∀ (l : List Nat) (st st' : DState),
    (∀ v ∈ l, st.owningCluster.get? v = some key) → l.foldlM (mergeCore nE key core) st = .ok st' →
    (∀ x, st'.onFrontiers.get? x = if x ∈ l then none else st.onFrontiers.get? x) ∧ st'.ownedElements = st.ownedElements ∧
      st'.frontierElements = st.frontierElements := by
  intro l
  induction l with
  | nil =>
    intro st st' _ h
    simp only [List.foldlM_nil, pure_eq_ok, Except.ok.injEq] at h
    subst h
    exact ⟨by simp, rfl, rfl⟩
  | cons v l ih =>
    intro st st' hown h
    rw [List.foldlM_cons, bind_eq_ok] at h
    obtain ⟨st1, h1, h2⟩ := h
    obtain ⟨e1, e2⟩ := mergeCore_own (hown v (by simp)) h1
    simp only [DState.maps, Prod.mk.injEq] at e1
    obtain ⟨k1, k2, k3⟩ := ih st1 st' (fun w hw => by
      rw [e2, IMap.get?_insert]
      split
      · rfl
      · exact hown w (by simp [hw])) h2
    refine ⟨fun x => ?_, k2.trans e1.2.1, k3.trans e1.2.2⟩
    rw [k1, e1.1, IMap.get?_erase]
    by_cases hx : x ∈ l
    · simp [hx]
    · by_cases hv : x = v
      · simp [hv]
      · simp [hx, hv]

theorem IMap.pushEntry_getD (m : IMap Nat (List Nat)) (k v k' : Nat) :
    ((m.pushEntry k v).get? k').getD [] = (m.get? k').getD [] ++ if k' = k then [v] else [] := by
  rw [IMap.pushEntry, IMap.get?_insert]
  by_cases h : k' = k
  · subst h; simp
  · simp [h]

theorem markFrontier_maps {nE key : Nat} : ∀ (l : List Nat) (st : DState), l.Nodup →
    (l.foldl (markFrontier nE key) st).ownedElements = st.ownedElements ∧
    (∀ x, x ∉ l → (l.foldl (markFrontier nE key) st).onFrontiers.get? x = st.onFrontiers.get? x) ∧
    (∀ x, x ∈ l → ((l.foldl (markFrontier nE key) st).onFrontiers.get? x).getD [] = (st.onFrontiers.get? x).getD [] ++ [key]) ∧
    ∀ k, ((l.foldl (markFrontier nE key) st).frontierElements.get? k).getD [] =
      (st.frontierElements.get? k).getD [] ++ if k = key then l.filter (fun v => decide (v < nE)) else [] := by
  intro l
  induction l with
  | nil => intro st _; exact ⟨rfl, fun _ _ => rfl, by simp, by simp⟩
  | cons v l ih =>
    intro st hn
    rw [List.nodup_cons] at hn
    obtain ⟨h1, h2, h3, h4⟩ := ih (markFrontier nE key st v) hn.2
    rw [List.foldl_cons]
    refine ⟨h1, fun x hx => ?_, fun x hx => ?_, fun k => ?_⟩
    · simp only [List.mem_cons, not_or] at hx
      rw [h2 x hx.2]
      exact IMap.get?_insert_ne _ _ hx.1
    · rcases List.mem_cons.1 hx with rfl | hxl
      · rw [h2 _ hn.1]
        simp only [markFrontier]
        rw [IMap.pushEntry_getD, if_pos rfl]
      · rw [h3 x hxl]
        simp only [markFrontier]
        rw [IMap.pushEntry_getD, if_neg (by rintro rfl; exact hn.1 hxl), List.append_nil]
    · rw [h4]
      simp only [markFrontier]
      by_cases hv : v < nE
      · rw [if_pos hv, IMap.pushEntry_getD, List.filter_cons_of_pos (by simpa using hv)]
        by_cases hk : k = key
        · simp [hk]
        · simp [hk]
      · rw [if_neg hv, List.filter_cons_of_neg (by simpa using hv)]

end Fiksi
