import Verif.Proofs.Freedom
/-!
# The system is determined by the figure

The components are built up while constraints are created, so they could depend on the moments at which elements were created. They do
not: the graph is always the one that results from creating all elements first and all constraints after them.
-/
namespace Fiksi

open Spec (Op Store Elem)

variable {F : Type}

/-! ## Elements that come later -/

/-- The graph with one more element that no constraint acts on. -/
def Graph.grow (g : Graph) (d : Nat) : Graph :=
  { g with elements := g.elements ++ [⟨d, []⟩], elementComponent := g.elementComponent ++ [none] }

theorem idx_grow {α : Type} {l m : List α} {i : Nat} {a : α} (h : idx l i = .ok a) : idx (l ++ m) i = .ok a := by
  rw [idx_eq_ok] at h ⊢
  rw [List.getElem?_append_left (lt_of_getElem? h), h]

theorem setIdx_grow {α : Type} {l l' m : List α} {i : Nat} {a : α} (h : setIdx l i a = .ok l') : setIdx (l ++ m) i a = .ok (l' ++ m) := by
  rw [setIdx_eq_ok] at h ⊢
  obtain ⟨h1, rfl⟩ := h
  exact ⟨by simp; omega, by rw [List.set_append_left _ _ h1]⟩

/-- Running a loop on states related by a function. -/
theorem foldlM_map_state {α σ τ : Type} (m : σ → τ) (f : σ → α → R σ) (f' : τ → α → R τ)
    (hf : ∀ s a s', f s a = .ok s' → f' (m s) a = .ok (m s')) : ∀ (l : List α) (s s' : σ), l.foldlM f s = .ok s' → l.foldlM f' (m s) = .ok (m s')
  | [], s, s', h => by
    rw [List.foldlM_nil, pure_eq_ok] at h ⊢
    rw [Except.ok.inj h]
  | a :: l, s, s', h => by
    rw [List.foldlM_cons, bind_eq_ok] at h ⊢
    obtain ⟨s1, h1, h2⟩ := h
    exact ⟨m s1, hf _ _ _ h1, foldlM_map_state m f f' hf l _ _ h2⟩

theorem pickLargest_grow (g : Graph) (d : Nat) {st st' : Option Nat × Nat} {e : Nat} (h : g.pickLargest st e = .ok st') :
    (g.grow d).pickLargest st e = .ok st' := by
  unfold Graph.pickLargest at h ⊢
  rw [bind_eq_ok] at h ⊢
  obtain ⟨o, h1, h2⟩ := h
  exact ⟨o, idx_grow h1, h2⟩

theorem mergeStep_grow (t : Nat) {st st' : MergeState} {e : Nat} (h : mergeStep t st e = .ok st') :
    mergeStep t { st with elementComponent := st.elementComponent ++ [none] } e = .ok { st' with elementComponent := st'.elementComponent ++ [none] } := by
  unfold mergeStep at h ⊢
  rw [bind_eq_ok] at h ⊢
  obtain ⟨o, h1, h2⟩ := h
  refine ⟨o, idx_grow h1, ?_⟩
  cases o with
  | none =>
    simp only [bind_eq_ok] at h2 ⊢
    obtain ⟨ec, h3, h4⟩ := h2
    cases h4
    exact ⟨_, setIdx_grow h3, rfl⟩
  | some ci =>
    simp only [bind_eq_ok] at h2 ⊢
    obtain ⟨cm, h5, ec, h3, h4⟩ := h2
    cases h4
    exact ⟨cm, h5, _, setIdx_grow h3, rfl⟩

theorem merge_grow (g g' : Graph) (d c : Nat) (es : List Nat) (h : g.mergeConnectedComponents c es = .ok g') :
    (g.grow d).mergeConnectedComponents c es = .ok (g'.grow d) := by
  unfold Graph.mergeConnectedComponents at h ⊢
  simp only [bind_eq_ok] at h ⊢
  obtain ⟨pk, h1, tc, h2, tg, h3, st, h4, cs, h5, h6⟩ := h
  cases h6
  refine ⟨pk, foldlM_map_state (fun s => s) _ _ (fun s a s' hs => pickLargest_grow g d hs) es _ _ h1, tc, h2, tg, h3, { st with elementComponent := st.elementComponent ++ [none] },
    foldlM_map_state (fun st : MergeState => { st with elementComponent := st.elementComponent ++ [none] }) _ _ (fun s a s' hs => mergeStep_grow _ hs) es _ _ h4,
    cs, h5, rfl⟩

theorem pushIncident_grow (g g' : Graph) (d c : Nat) (es : List Nat) (h : g.pushIncidentConstraint es c = .ok g') :
    (g.grow d).pushIncidentConstraint es c = .ok (g'.grow d) := by
  unfold Graph.pushIncidentConstraint at h ⊢
  rw [bind_eq_ok] at h ⊢
  obtain ⟨els, h1, h2⟩ := h
  cases h2
  refine ⟨els ++ [⟨d, []⟩], foldlM_map_state (fun l : List GElement => l ++ [⟨d, []⟩]) _ _ (fun l a l' hl => ?_) es _ _ h1, rfl⟩
  rw [bind_eq_ok] at hl ⊢
  obtain ⟨el, h3, h4⟩ := hl
  exact ⟨el, idx_grow h3, setIdx_grow h4⟩

/-- A constraint may be created before or after an element it does not act on. -/
theorem addConstraint_grow (g g' : Graph) (d v x : Nat) (es : List Nat) (h : g.addConstraint v es = .ok (x, g')) :
    (g.grow d).addConstraint v es = .ok (x, g'.grow d) := by
  unfold Graph.addConstraint at h ⊢
  simp only [bind_eq_ok] at h ⊢
  obtain ⟨c, h1, g1, h2, g2, h3, h4⟩ := h
  cases h4
  exact ⟨x, h1, _, merge_grow _ _ _ _ _ h2, _, pushIncident_grow _ _ _ _ _ h3, rfl⟩

/-! ## The graph of a figure -/

/-- Create the constraints. -/
def Graph.addAll (g : Graph) (cs : List GConstraint) : R Graph :=
  cs.foldlM (fun g c => do let r ← g.addConstraint c.valency c.incidentElements; pure r.2) g

/-- A graph with elements only. -/
def Graph.bare (dofs : List Nat) : Graph := ⟨dofs.map (⟨·, []⟩), [], dofs.map fun _ => none, []⟩

/-- The graph is the one made by creating all elements first and all constraints after them. -/
def Graph.Canonical (g : Graph) : Prop := (Graph.bare (g.elements.map GElement.dof)).addAll g.constraints = .ok g

theorem addAll_grow (d : Nat) (cs : List GConstraint) (g g' : Graph) (h : g.addAll cs = .ok g') : (g.grow d).addAll cs = .ok (g'.grow d) := by
  refine foldlM_map_state (fun g : Graph => g.grow d) _ _ (fun g c g' hg => ?_) cs _ _ h
  rw [bind_eq_ok] at hg ⊢
  obtain ⟨⟨x, g1⟩, h1, h2⟩ := hg
  cases h2
  exact ⟨_, addConstraint_grow _ _ _ _ _ _ h1, rfl⟩

theorem Graph.addConstraint_constraints {g g' : Graph} {v x : Nat} {es : List Nat} (h : g.addConstraint v es = .ok (x, g')) :
    g'.constraints = g.constraints ++ [⟨v, es⟩] := by
  unfold Graph.addConstraint at h
  simp only [bind_eq_ok] at h
  obtain ⟨c, -, g1, h2, g2, h3, h4⟩ := h
  cases h4
  unfold Graph.pushIncidentConstraint at h3
  rw [bind_eq_ok] at h3
  obtain ⟨els, -, h3⟩ := h3
  cases h3
  unfold Graph.mergeConnectedComponents at h2
  simp only [bind_eq_ok] at h2
  obtain ⟨pk, -, _, -, _, -, _, -, _, -, h7⟩ := h2
  cases h7
  rfl

theorem Graph.Canonical.step {g g' : Graph} (h : g.Canonical) (hs : GraphStep g g') : g'.Canonical := by
  rcases hs with rfl | ⟨d, x, hs⟩ | ⟨v, es, x, hs⟩
  · exact h
  · unfold Graph.addElement at hs
    rw [bind_eq_ok] at hs
    obtain ⟨_, -, hs⟩ := hs
    cases hs
    have := addAll_grow d _ _ _ h
    unfold Graph.Canonical
    simpa [Graph.grow, Graph.bare] using this
  · unfold Graph.Canonical
    rw [Graph.addConstraint_dof hs, Graph.addConstraint_constraints hs]
    unfold Graph.addAll
    rw [List.foldlM_append, bind_eq_ok]
    refine ⟨g, h, ?_⟩
    rw [List.foldlM_cons, bind_eq_ok]
    exact ⟨g', by rw [hs]; rfl, rfl⟩

theorem Reaches.canonical {counter : Nat} : ∀ {ops : List (Op F)} {c : Client F}, Reaches counter ops c → c.sys.graph.Canonical := by
  intro ops
  induction ops using List.reverseRecOn with
  | nil =>
    intro c h
    cases h.run
    rfl
  | append_singleton ops op ih =>
    intro c h
    obtain ⟨h1, h2, h3⟩ := h
    rw [client_run_append] at h3
    obtain ⟨c1, h4, h5⟩ := h3
    have hr : Reaches counter ops c1 := ⟨by simp at h1; omega, ((legalRun_append _ _ _).1 h2).1, h4⟩
    rw [Client.run, List.foldlM_cons, bind_eq_ok] at h5
    obtain ⟨c2, h6, h7⟩ := h5
    cases h7
    exact (ih hr).step (Client.exec_graph h6)

/-! ## The whole system -/

theorem Rel.determined {s s' : System F} {st : Store F} (h : Rel s st) (h' : Rel s' st) (hg : s.graph = s'.graph) : s' = { s with id := s'.id } := by
  have e1 : s.vars = s'.vars := h.vars.trans h'.vars.symm
  have e2 : s.elements = s'.elements := h.elements.trans h'.elements.symm
  have e3 : s.variableToPrimitive = s'.variableToPrimitive := h.owners.trans h'.owners.symm
  have e4 : s.fixedVariables = s'.fixedVariables := by
    ext k
    rw [h.fixed, h'.fixed, e3]
  have e5 : s.expressions = s'.expressions := h.exprs.trans h'.exprs.symm
  have e6 : s.constraints = s'.constraints := h.constraints.trans h'.constraints.symm
  have e7 : s.expressionToConstraint = s'.expressionToConstraint := h.exprCon.trans h'.exprCon.symm
  have e8 : s.equationGraph = s'.equationGraph := by
    have a := h.eqGraph
    have b := h'.eqGraph
    rw [← e5, ← e1] at b
    have x : s.equationGraph.expressions = s'.equationGraph.expressions := a.expressions.trans b.expressions.symm
    have y : s.equationGraph.vars = s'.equationGraph.vars := by
      apply List.ext_getElem?
      intro v
      by_cases hv : v < s.vars.length
      · rw [a.vars v hv, b.vars v hv]
      · rw [List.getElem?_eq_none (by rw [a.varsLength]; omega), List.getElem?_eq_none (by rw [b.varsLength]; omega)]
    cases hx : s.equationGraph
    cases hy : s'.equationGraph
    rw [hx, hy] at x y
    subst x y
    rfl
  cases s
  cases s'
  simp only at hg e1 e2 e3 e4 e5 e6 e7 e8
  subst hg e1 e2 e3 e4 e5 e6 e7 e8
  rfl

/-- Two histories that lead to the same figure lead to the same system, up to the number of the system. -/
theorem Reaches.determined {k k' : Nat} {ops ops' : List (Op F)} {c c' : Client F} (h : Reaches k ops c) (h' : Reaches k' ops' c')
    (hst : (Store.empty F).run ops = (Store.empty F).run ops') : c'.sys = { c.sys with id := k' } := by
  have r := h.crel
  have r' := h'.crel
  have d := h.dofs
  have d' := h'.dofs
  rw [← hst] at r' d'
  have hg : c.sys.graph = c'.sys.graph := by
    have k := h.canonical
    have k' := h'.canonical
    unfold Graph.Canonical at k k'
    rw [d, r.rel.graphCons] at k
    rw [d', r'.rel.graphCons, k] at k'
    exact Except.ok.inj k'
  have e := r.rel.determined r'.rel hg
  rwa [h'.sysId] at e

end Fiksi
