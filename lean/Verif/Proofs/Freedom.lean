import Verif.Proofs.Incidence
/-! # The graph counts two degrees of freedom for points, one for lengths and none for lines and circles -/
namespace Fiksi

open Spec (Op Store Elem SameShape)

variable {F : Type}

/-- The degrees of freedom of an element of its own. -/
def Spec.Elem.freedom : Elem F → Nat
  | .length _ => 1
  | .point _ _ => 2
  | .line _ _ => 0
  | .circle _ _ => 0

theorem pushIncident_dof (c : Nat) : ∀ (l : List Nat) (els els' : List GElement),
    l.foldlM (fun (es : List GElement) (e : Nat) => do
      let el ← idx es e
      setIdx es e { el with incidentConstraints := el.incidentConstraints ++ [c] }) els = (.ok els' : R (List GElement)) →
    els'.map GElement.dof = els.map GElement.dof := by
  intro l els els' h
  refine foldlM_inv (fun es : List GElement => es.map GElement.dof = els.map GElement.dof) _ l els els' rfl (fun es e es' _ h1 h2 => ?_) h
  rw [bind_eq_ok] at h2
  obtain ⟨el, h3, h4⟩ := h2
  rw [idx_eq_ok] at h3
  rw [setIdx_eq_ok] at h4
  obtain ⟨h4, rfl⟩ := h4
  rw [← h1, List.map_set]
  have : (es.map GElement.dof)[e]? = some el.dof := by rw [List.getElem?_map, h3]; rfl
  apply List.ext_getElem?
  intro j
  rw [List.getElem?_set]
  split
  · rename_i hj
    subst hj
    rw [this, if_pos (by simpa using h4)]
  · rfl

theorem Graph.addConstraint_dof {g g' : Graph} {v x : Nat} {es : List Nat} (h : g.addConstraint v es = .ok (x, g')) :
    g'.elements.map GElement.dof = g.elements.map GElement.dof := by
  unfold Graph.addConstraint at h
  simp only [bind_eq_ok] at h
  obtain ⟨c, -, g1, h2, g2, h3, h4⟩ := h
  cases h4
  unfold Graph.pushIncidentConstraint at h3
  rw [bind_eq_ok] at h3
  obtain ⟨els, h5, h3⟩ := h3
  cases h3
  unfold Graph.mergeConnectedComponents at h2
  simp only [bind_eq_ok] at h2
  obtain ⟨pk, -, _, -, _, -, _, -, _, -, h7⟩ := h2
  cases h7
  exact pushIncident_dof _ _ _ _ h5

theorem System.addElement_dof {s s' : System F} {vs : List F} {enc : Nat → EncodedElement} {h : Handle}
    (hs : s.addElement vs enc = .ok (h, s')) : s'.graph.elements.map GElement.dof = s.graph.elements.map GElement.dof ++ [vs.length] := by
  unfold System.addElement at hs
  simp only [bind_eq_ok] at hs
  obtain ⟨_, -, _, -, ⟨x, g⟩, hg, hs⟩ := hs
  cases hs
  unfold Graph.addElement at hg
  rw [bind_eq_ok] at hg
  obtain ⟨_, -, hg⟩ := hg
  cases hg
  simp

theorem sameShape_freedom {l l' : List (Elem F)} (h : List.Forall₂ SameShape l l') : l'.map Elem.freedom = l.map Elem.freedom := by
  induction h with
  | nil => rfl
  | cons h _ ih =>
    rw [List.map_cons, List.map_cons, ih]
    congr 1
    rename_i a b _ _ _
    cases a <;> cases b <;> simp_all [SameShape, Elem.freedom]

/-- The degrees of freedom in the graph. -/
theorem Reaches.dofs {counter : Nat} : ∀ {ops : List (Op F)} {c : Client F}, Reaches counter ops c →
    c.sys.graph.elements.map GElement.dof = ((Store.empty F).run ops).elems.map Elem.freedom := by
  intro ops
  induction ops using List.reverseRecOn with
  | nil =>
    intro c h
    cases h.run
    rfl
  | append_singleton ops op ih =>
    intro c h
    have hrel := h.crel.rel
    obtain ⟨h1, h2, h3⟩ := h
    rw [client_run_append] at h3
    obtain ⟨c1, h4, h5⟩ := h3
    have hl := (legalRun_append _ _ _).1 h2
    have hr : Reaches counter ops c1 := ⟨by simp at h1; omega, hl.1, h4⟩
    have hrel1 := hr.crel.rel
    rw [Client.run, List.foldlM_cons, bind_eq_ok] at h5
    obtain ⟨c2, h6, h7⟩ := h5
    cases h7
    have hlegal : ((Store.empty F).run ops).Legal op := hl.2.1
    have hrun : (Store.empty F).run (ops ++ [op]) = ((Store.empty F).run ops).step op := by
      rw [Store.run, List.foldl_append]; rfl
    rw [hrun] at hrel ⊢
    have ih := ih hr
    generalize (Store.empty F).run ops = st at *
    have same : (st.step op).elems.map Elem.freedom = st.elems.map Elem.freedom → c.sys.graph.elements.map GElement.dof = (st.step op).elems.map Elem.freedom := by
      intro he
      rw [he]
      rcases Client.exec_graph h6 with h8 | ⟨d, x, h8⟩ | ⟨v, es, x, h8⟩
      · rw [h8]; exact ih
      · have e1 := hrel.graph.elements
        have e2 := hrel1.graph.elements
        have e3 := congrArg List.length he
        simp only [List.length_map] at e3
        unfold Graph.addElement at h8
        rw [bind_eq_ok] at h8
        obtain ⟨_, -, h8⟩ := h8
        simp only [pure_eq_ok] at h8
        have e4 := congrArg (fun q : Nat × Graph => q.2.elements.length) (Except.ok.inj h8)
        simp only [List.length_append, List.length_singleton] at e4
        omega
      · rw [Graph.addConstraint_dof h8]; exact ih
    have hset : ∀ (i : Nat) (e e' : Elem F), st.elems[i]? = some e → e'.freedom = e.freedom → (st.elems.set i e').map Elem.freedom = st.elems.map Elem.freedom := by
      intro i e e' hi he
      rw [List.map_set, he]
      apply List.ext_getElem?
      intro j
      rw [List.getElem?_set]
      split
      · rename_i hj
        subst hj
        rw [List.getElem?_map, hi, if_pos (by simpa using lt_of_getElem? hi)]
        rfl
      · rfl
    cases op with
    | createLength v =>
      simp only [Client.exec, bind_eq_ok] at h6
      obtain ⟨⟨hd, s⟩, h8, h6⟩ := h6
      cases h6
      rw [System.addElement_dof h8, ih]
      simp [Store.step, Elem.freedom]
    | createPoint x y =>
      simp only [Client.exec, bind_eq_ok] at h6
      obtain ⟨⟨hd, s⟩, h8, h6⟩ := h6
      cases h6
      rw [System.addElement_dof h8, ih]
      simp [Store.step, Elem.freedom]
    | createLine p q =>
      simp only [Client.exec, bind_eq_ok] at h6
      obtain ⟨_, -, _, -, ⟨hd, s⟩, h8, h6⟩ := h6
      cases h6
      simp only [System.createLine, bind_eq_ok] at h8
      obtain ⟨_, -, _, -, h8⟩ := h8
      rw [System.addElement_dof h8, ih]
      simp [Store.step, Elem.freedom]
    | createCircle p q =>
      simp only [Client.exec, bind_eq_ok] at h6
      obtain ⟨_, -, _, -, ⟨hd, s⟩, h8, h6⟩ := h6
      cases h6
      simp only [System.createCircle, bind_eq_ok] at h8
      obtain ⟨_, -, _, -, h8⟩ := h8
      rw [System.addElement_dof h8, ih]
      simp [Store.step, Elem.freedom]
    | createCon con => exact same rfl
    | fix _ _ => exact same rfl
    | unfix _ _ => exact same rfl
    | updatePoint i x y =>
      obtain ⟨a, b, hi⟩ := hlegal
      exact same (hset i _ _ hi rfl)
    | updateLength i v =>
      obtain ⟨a, hi⟩ := hlegal
      exact same (hset i _ _ hi rfl)
    | updateParameter _ i v =>
      refine same ?_
      simp only [Store.step]
      split <;> rfl
    | solve result =>
      have hsh : List.Forall₂ SameShape st.elems result := hlegal
      refine same ?_
      show result.map Elem.freedom = st.elems.map Elem.freedom
      exact sameShape_freedom hsh

end Fiksi
