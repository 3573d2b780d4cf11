import Verif.Proofs.Incidence
/-! # An element lists a constraint as often as the constraint lists the element -/
namespace Fiksi

open Spec (Op)

variable {F : Type}

/-- The incidence lists of elements and constraints agree, with multiplicities. -/
def Graph.Counts (g : Graph) : Prop :=
  ∀ (v e : Nat) el inc, g.elements[v]? = some el → g.incidents[e]? = some inc → el.incidentConstraints.count e = inc.count v

theorem pushIncident_count (c : Nat) : ∀ (l : List Nat) (els els' : List GElement),
    l.foldlM (fun (es : List GElement) (e : Nat) => do
      let el ← idx es e
      setIdx es e { el with incidentConstraints := el.incidentConstraints ++ [c] }) els = (.ok els' : R (List GElement)) →
    ∀ (v : Nat) el, els[v]? = some el → ∃ el', els'[v]? = some el' ∧
      ∀ e, el'.incidentConstraints.count e = el.incidentConstraints.count e + if e = c then l.count v else 0 := by
  intro l
  induction l with
  | nil =>
    intro els els' h
    cases h
    exact fun v el h => ⟨el, h, by simp⟩
  | cons a l ih =>
    intro els els' h
    rw [List.foldlM_cons, bind_eq_ok] at h
    obtain ⟨els1, h1, h2⟩ := h
    rw [bind_eq_ok] at h1
    obtain ⟨ea, h3, h4⟩ := h1
    rw [idx_eq_ok] at h3
    rw [setIdx_eq_ok] at h4
    obtain ⟨h4, rfl⟩ := h4
    have i3 := ih _ _ h2
    intro v el hv
    by_cases hva : a = v
    · subst hva
      rw [h3] at hv
      cases hv
      obtain ⟨el', j1, j2⟩ := i3 a _ (by rw [List.getElem?_set_self h4])
      refine ⟨el', j1, fun e => ?_⟩
      rw [j2, List.count_append, List.count_cons_self]
      by_cases hec : e = c
      · subst hec; simp; omega
      · have h0 : List.count e [c] = 0 := List.count_eq_zero_of_not_mem (by simpa using hec)
        rw [if_neg hec, if_neg hec, h0]
    · obtain ⟨el', j1, j2⟩ := i3 v el (by rw [List.getElem?_set_ne hva]; exact hv)
      refine ⟨el', j1, fun e => ?_⟩
      rw [j2, List.count_cons_of_ne hva]

theorem Graph.Counts.step {g g' : Graph} (hi : g.Incidence) (h : g.Counts) (hs : GraphStep g g') : g'.Counts := by
  rcases hs with rfl | ⟨d, x, hs⟩ | ⟨v, es, x, hs⟩
  · exact h
  · unfold Graph.addElement at hs
    rw [bind_eq_ok] at hs
    obtain ⟨_, -, hs⟩ := hs
    cases hs
    intro v e el inc hel hinc
    simp only [List.getElem?_append] at hel
    split at hel
    · exact h v e el inc hel hinc
    · cases hn : v - g.elements.length with
      | zero =>
        rw [hn] at hel
        cases hel
        symm
        rw [List.count_nil]
        refine List.count_eq_zero_of_not_mem fun hv => ?_
        obtain ⟨el', h1, -⟩ := (hi v e).2 ⟨inc, hinc, hv⟩
        have := lt_of_getElem? h1
        omega
      | succ n => rw [hn] at hel; simp at hel
  · unfold Graph.addConstraint at hs
    simp only [bind_eq_ok] at hs
    obtain ⟨c, h1, g1, h2, g2, h3, h4⟩ := hs
    have hc := (toU32_eq_ok.1 h1).2
    subst hc
    cases h4
    unfold Graph.pushIncidentConstraint at h3
    rw [bind_eq_ok] at h3
    obtain ⟨els, h5, h3⟩ := h3
    cases h3
    unfold Graph.mergeConnectedComponents at h2
    simp only [bind_eq_ok] at h2
    obtain ⟨pk, h6, _, -, _, -, _, -, _, -, h7⟩ := h2
    cases h7
    obtain ⟨k1, -, -⟩ := pushIncident_spec _ _ _ _ h5
    have k3 := pushIncident_count _ _ _ _ h5
    intro w e el' inc hel' hinc
    obtain ⟨el, h10⟩ := getElem?_exists (l := g.elements) (i := w) (by rw [← k1]; exact lt_of_getElem? hel')
    obtain ⟨el'', h11, h12⟩ := k3 w el h10
    rw [show els[w]? = some el' from hel'] at h11
    cases h11
    rw [h12]
    simp only [Graph.incidents, List.map_append, List.map_cons, List.map_nil] at hinc
    by_cases hlt : e < (g.constraints.map GConstraint.incidentElements).length
    · rw [List.getElem?_append_left hlt] at hinc
      rw [if_neg (by simp at hlt; omega), Nat.add_zero]
      exact h w e el inc h10 hinc
    · rw [List.getElem?_append_right (by omega)] at hinc
      have h13 := lt_of_getElem? hinc
      have : e = g.constraints.length := by simp only [List.length_map, List.length_singleton] at hlt h13; omega
      subst this
      simp at hinc
      subst hinc
      rw [if_pos rfl, List.count_eq_zero_of_not_mem, Nat.zero_add]
      intro hm
      obtain ⟨inc, h14, -⟩ := (hi w _).1 ⟨el, h10, hm⟩
      have := lt_of_getElem? h14
      simp [Graph.incidents] at this

theorem Reaches.counts {counter : Nat} : ∀ {ops : List (Op F)} {c : Client F}, Reaches counter ops c → c.sys.graph.Counts := by
  intro ops
  induction ops using List.reverseRecOn with
  | nil =>
    intro c h
    cases h.run
    intro v e
    simp [Client.new, System.new, Graph.new, Graph.incidents]
  | append_singleton ops op ih =>
    intro c h
    obtain ⟨h1, h2, h3⟩ := h
    rw [client_run_append] at h3
    obtain ⟨c1, h4, h5⟩ := h3
    have hr : Reaches counter ops c1 := ⟨by simp at h1; omega, ((legalRun_append _ _ _).1 h2).1, h4⟩
    rw [Client.run, List.foldlM_cons, bind_eq_ok] at h5
    obtain ⟨c2, h6, h7⟩ := h5
    cases h7
    exact (ih hr).step hr.incidence (Client.exec_graph h6)

end Fiksi
