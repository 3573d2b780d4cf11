import Verif.Proofs.Components
/-! # Elements know their constraints -/
namespace Fiksi

open Spec (Op)

variable {F : Type}

/-- The incidence lists of elements and constraints agree. -/
def Graph.Incidence (g : Graph) : Prop :=
  ∀ v e : Nat, (∃ el, g.elements[v]? = some el ∧ e ∈ el.incidentConstraints) ↔ ∃ inc, g.incidents[e]? = some inc ∧ v ∈ inc

theorem pushIncident_spec (c : Nat) : ∀ (l : List Nat) (els els' : List GElement),
    l.foldlM (fun (es : List GElement) (e : Nat) => do
      let el ← idx es e
      setIdx es e { el with incidentConstraints := el.incidentConstraints ++ [c] }) els = (.ok els' : R (List GElement)) →
    els'.length = els.length ∧ (∀ e ∈ l, e < els.length) ∧
    ∀ (v : Nat) el, els[v]? = some el → ∃ el', els'[v]? = some el' ∧
      ∀ e, e ∈ el'.incidentConstraints ↔ e ∈ el.incidentConstraints ∨ (e = c ∧ v ∈ l) := by
  intro l
  induction l with
  | nil =>
    intro els els' h
    cases h
    exact ⟨rfl, by simp, fun v el h => ⟨el, h, by simp⟩⟩
  | cons a l ih =>
    intro els els' h
    rw [List.foldlM_cons, bind_eq_ok] at h
    obtain ⟨els1, h1, h2⟩ := h
    rw [bind_eq_ok] at h1
    obtain ⟨ea, h3, h4⟩ := h1
    rw [idx_eq_ok] at h3
    rw [setIdx_eq_ok] at h4
    obtain ⟨h4, rfl⟩ := h4
    obtain ⟨i1, i2, i3⟩ := ih _ _ h2
    rw [List.length_set] at i1 i2
    refine ⟨i1, fun e he => ?_, fun v el hv => ?_⟩
    · rcases List.mem_cons.1 he with rfl | he
      · exact h4
      · exact i2 e he
    · by_cases hva : a = v
      · subst hva
        rw [h3] at hv
        cases hv
        obtain ⟨el', j1, j2⟩ := i3 a _ (by rw [List.getElem?_set_self h4])
        refine ⟨el', j1, fun e => ?_⟩
        rw [j2]
        simp only [List.mem_append, List.mem_singleton, List.mem_cons]
        tauto
      · obtain ⟨el', j1, j2⟩ := i3 v el (by rw [List.getElem?_set_ne hva]; exact hv)
        refine ⟨el', j1, fun e => ?_⟩
        rw [j2, List.mem_cons]
        have : ¬ v = a := fun h => hva h.symm
        tauto

theorem Graph.Incidence.step {g g' : Graph} (h : g.Incidence) (hs : GraphStep g g') : g'.Incidence := by
  rcases hs with rfl | ⟨d, x, hs⟩ | ⟨v, es, x, hs⟩
  · exact h
  · unfold Graph.addElement at hs
    rw [bind_eq_ok] at hs
    obtain ⟨_, -, hs⟩ := hs
    cases hs
    intro v e
    refine Iff.trans ?_ (h v e)
    simp only [List.getElem?_append]
    split
    · rfl
    · rw [List.getElem?_eq_none (l := g.elements) (by omega)]
      cases v - g.elements.length <;> simp
  · unfold Graph.addConstraint at hs
    simp only [bind_eq_ok] at hs
    obtain ⟨c, h1, g1, h2, g2, h3, h4⟩ := hs
    have hc := (toU32_eq_ok.1 h1).2
    subst hc
    cases h4
    unfold Graph.pushIncidentConstraint at h3
    rw [bind_eq_ok] at h3
    obtain ⟨els, h5, h3⟩ := h3
    cases h3
    unfold Graph.mergeConnectedComponents at h2
    simp only [bind_eq_ok] at h2
    obtain ⟨pk, h6, _, -, _, -, _, -, _, -, h7⟩ := h2
    cases h7
    obtain ⟨k1, k2, k3⟩ := pushIncident_spec _ _ _ _ h5
    have hlen : g.incidents.length = g.constraints.length := by simp [Graph.incidents]
    intro w e
    have hr : (∃ inc, (Graph.incidents { g with constraints := g.constraints ++ [⟨v, es⟩] })[e]? = some inc ∧ w ∈ inc) ↔
        (∃ inc, g.incidents[e]? = some inc ∧ w ∈ inc) ∨ (e = g.constraints.length ∧ w ∈ es) := by
      simp only [Graph.incidents, List.map_append, List.map_cons, List.map_nil]
      constructor
      · rintro ⟨inc, h8, h9⟩
        by_cases hlt : e < (g.constraints.map GConstraint.incidentElements).length
        · rw [List.getElem?_append_left hlt] at h8
          exact .inl ⟨inc, h8, h9⟩
        · rw [List.getElem?_append_right (by omega)] at h8
          have h10 := lt_of_getElem? h8
          have : e = g.constraints.length := by simp only [List.length_map, List.length_singleton] at hlt h10; omega
          subst this
          simp at h8
          subst h8
          exact .inr ⟨rfl, h9⟩
      · rintro (⟨inc, h8, h9⟩ | ⟨rfl, h9⟩)
        · exact ⟨inc, by rw [List.getElem?_append_left (lt_of_getElem? h8)]; exact h8, h9⟩
        · exact ⟨es, by rw [List.getElem?_append_right (by simp)]; simp, h9⟩
    refine Iff.trans ?_ (Iff.trans (or_congr_left (h w e)) hr.symm)
    constructor
    · rintro ⟨el', h8, h9⟩
      obtain ⟨el, h10⟩ := getElem?_exists (l := g.elements) (i := w) (by rw [← k1]; exact lt_of_getElem? h8)
      obtain ⟨el'', h11, h12⟩ := k3 w el h10
      rw [show els[w]? = some el' from h8] at h11
      cases h11
      rcases (h12 e).1 h9 with h | h
      · exact .inl ⟨el, h10, h⟩
      · exact .inr h
    · rintro (⟨el, h8, h9⟩ | ⟨rfl, h9⟩)
      · obtain ⟨el', h11, h12⟩ := k3 w el h8
        exact ⟨el', h11, (h12 e).2 (.inl h9)⟩
      · obtain ⟨el, h10⟩ := getElem?_exists (l := g.elements) (i := w) (k2 w h9)
        obtain ⟨el', h11, h12⟩ := k3 w el h10
        exact ⟨el', h11, (h12 _).2 (.inr ⟨rfl, h9⟩)⟩

theorem Reaches.incidence {counter : Nat} : ∀ {ops : List (Op F)} {c : Client F}, Reaches counter ops c → c.sys.graph.Incidence := by
  intro ops
  induction ops using List.reverseRecOn with
  | nil =>
    intro c h
    cases h.run
    intro v e
    simp [Client.new, System.new, Graph.new, Graph.incidents]
  | append_singleton ops op ih =>
    intro c h
    obtain ⟨h1, h2, h3⟩ := h
    rw [client_run_append] at h3
    obtain ⟨c1, h4, h5⟩ := h3
    have hr : Reaches counter ops c1 := ⟨by simp at h1; omega, ((legalRun_append _ _ _).1 h2).1, h4⟩
    rw [Client.run, List.foldlM_cons, bind_eq_ok] at h5
    obtain ⟨c2, h6, h7⟩ := h5
    cases h7
    exact (ih hr).step (Client.exec_graph h6)

end Fiksi
