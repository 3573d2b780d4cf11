import Verif.Model.Graph
import Verif.Proofs.Basic
/-! # The element graph never panics on ids in range -/
namespace Fiksi

/-- Shape invariant of the graph: `n` elements, `m` constraints, component indices in range. -/
structure GraphShape (g : Graph) (n m : Nat) : Prop where
  elements : g.elements.length = n
  elementComponent : g.elementComponent.length = n
  constraints : g.constraints.length = m
  components : g.components.length ≤ m
  valid : ∀ (i k : Nat), g.elementComponent[i]? = some (some k) → 1 ≤ k ∧ k ≤ g.components.length

theorem GraphShape.new : GraphShape Graph.new 0 0 := by
  constructor <;> simp [Graph.new]

theorem getElem?_exists {α : Type} {l : List α} {i : Nat} (h : i < l.length) : ∃ a, l[i]? = some a :=
  ⟨l[i], List.getElem?_eq_getElem h⟩

theorem Graph.addElement_ok {g : Graph} {n m : Nat} (h : GraphShape g n m) (hn : n < 2 ^ 32) (dof : Nat) :
    ∃ g', g.addElement dof = .ok (n, g') ∧ GraphShape g' (n + 1) m ∧ g'.constraints = g.constraints := by
  refine ⟨{ g with elements := g.elements ++ [⟨dof, []⟩], elementComponent := g.elementComponent ++ [none] },
    ?_, ?_, ?_⟩
  · simp only [Graph.addElement, h.elements, toU32_of hn, ok_bind, pure_eq_ok]
  · constructor
    · simp [h.elements]
    · simp [h.elementComponent]
    · exact h.constraints
    · exact h.components
    · intro i k hk
      simp only at hk ⊢
      apply h.valid i k
      rw [List.getElem?_append] at hk
      split at hk
      · exact hk
      · cases hi : i - g.elementComponent.length <;> simp [hi] at hk
  · rfl

theorem pickLargest_ok {g : Graph} {n m : Nat} (h : GraphShape g n m) (st : Option Nat × Nat) (e : Nat)
    (he : e < n) (hst : ∀ k, st.1 = some k → 1 ≤ k ∧ k ≤ g.components.length) :
    ∃ st', g.pickLargest st e = .ok st' ∧ (∀ k, st'.1 = some k → 1 ≤ k ∧ k ≤ g.components.length) := by
  unfold Graph.pickLargest
  obtain ⟨o, ho⟩ := getElem?_exists (l := g.elementComponent) (i := e) (by rw [h.elementComponent]; exact he)
  rw [idx_of ho]
  cases o with
  | none => exact ⟨st, rfl, hst⟩
  | some k =>
    have hk := h.valid e k ho
    obtain ⟨c, hc⟩ := getElem?_exists (l := g.components) (i := k - 1) (by omega)
    simp only [ok_bind, idx_of hc]
    split
    · exact ⟨_, rfl, by simpa using hk⟩
    · exact ⟨_, rfl, hst⟩

/-- Shape invariant of the merging loop. -/
structure MergeShape (st : MergeState) (n m : Nat) : Prop where
  elementComponent : st.elementComponent.length = n
  components : st.components.length = m
  valid : ∀ (i k : Nat), st.elementComponent[i]? = some (some k) → 1 ≤ k ∧ k ≤ m

theorem mergeStep_ok {st : MergeState} {n m t : Nat} (h : MergeShape st n m) (ht : 1 ≤ t ∧ t ≤ m) (e : Nat)
    (he : e < n) : ∃ st', mergeStep t st e = .ok st' ∧ MergeShape st' n m := by
  unfold mergeStep
  have hlen : e < st.elementComponent.length := by rw [h.elementComponent]; exact he
  obtain ⟨o, ho⟩ := getElem?_exists hlen
  rw [idx_of ho]
  have hvalid : ∀ (i k : Nat), (st.elementComponent.set e (some t))[i]? = some (some k) → 1 ≤ k ∧ k ≤ m := by
    intro i k hk
    rw [List.getElem?_set] at hk
    split at hk
    · simp only [if_true, Option.some.injEq] at hk
      subst hk
      exact ht
    · exact h.valid i k hk
  cases o with
  | none =>
    simp only [ok_bind, setIdx_of _ hlen, pure_eq_ok]
    exact ⟨_, rfl, ⟨by simp [h.elementComponent], h.components, hvalid⟩⟩
  | some k =>
    have hk := h.valid e k ho
    obtain ⟨c, hc⟩ := getElem?_exists (l := st.components) (i := k - 1) (by rw [h.components]; omega)
    simp only [ok_bind, setIdx_of _ hlen, pure_eq_ok, idx_of hc]
    exact ⟨_, rfl, ⟨by simp [h.elementComponent], by simp [h.components], hvalid⟩⟩

theorem Graph.mergeConnectedComponents_ok {g : Graph} {n m : Nat} (h : GraphShape g n m) (hm : m + 1 < 2 ^ 32)
    (c : Nat) (es : List Nat) (hes : ∀ e ∈ es, e < n) :
    ∃ g', g.mergeConnectedComponents c es = .ok g' ∧ g'.elements = g.elements ∧ g'.constraints = g.constraints ∧
      g'.elementComponent.length = n ∧ g'.components.length ≤ m + 1 ∧
      ∀ (i k : Nat), g'.elementComponent[i]? = some (some k) → 1 ≤ k ∧ k ≤ g'.components.length := by
  obtain ⟨⟨pk, sz⟩, hp, hpk⟩ := foldlM_ok (fun st : Option Nat × Nat => ∀ k, st.1 = some k → 1 ≤ k ∧ k ≤ g.components.length)
    g.pickLargest es (none, 0) (by simp) (fun st e he hst => pickLargest_ok h st e (hes e he) hst)
  unfold Graph.mergeConnectedComponents
  rw [hp]
  simp only [ok_bind]
  have key : ∀ (t : Nat) (comps : List Component), 1 ≤ t → t ≤ comps.length → comps.length ≤ m + 1 →
      g.components.length ≤ comps.length →
      ∃ g', ((do
        let target ← idx comps (t - 1)
        let st ← es.foldlM (mergeStep t)
          { target := target, elementComponent := g.elementComponent,
            components := comps.set (t - 1) Component.empty }
        let components ← setIdx st.components (t - 1) ⟨st.target.elements, insert c st.target.constraints⟩
        pure { g with elementComponent := st.elementComponent, components := components }) : R Graph) = .ok g' ∧
      g'.elements = g.elements ∧ g'.constraints = g.constraints ∧
      g'.elementComponent.length = n ∧ g'.components.length ≤ m + 1 ∧
      ∀ (i k : Nat), g'.elementComponent[i]? = some (some k) → 1 ≤ k ∧ k ≤ g'.components.length := by
    intro t comps ht1 ht2 hle hge
    obtain ⟨tc, htc⟩ := getElem?_exists (l := comps) (i := t - 1) (by omega)
    obtain ⟨st, hst, hsh⟩ := foldlM_ok (fun st => MergeShape st n comps.length) (mergeStep t) es
      { target := tc, elementComponent := g.elementComponent, components := comps.set (t - 1) Component.empty }
      ⟨h.elementComponent, by simp, fun i k hk => by have := h.valid i k hk; omega⟩
      (fun st e he hs => mergeStep_ok hs ⟨ht1, ht2⟩ e (hes e he))
    refine ⟨{ g with elementComponent := st.elementComponent, components := st.components.set (t - 1) <|
      ⟨st.target.elements, insert c st.target.constraints⟩ }, ?_, ?_⟩
    · rw [idx_of htc, ok_bind, hst, ok_bind, setIdx_of _ (by rw [hsh.components]; omega)]
      rfl
    · refine ⟨rfl, rfl, hsh.elementComponent, by simp [hsh.components, hle], ?_⟩
      intro i k hk
      simpa [hsh.components] using hsh.valid i k hk
  cases pk with
  | some t =>
    have := hpk t rfl
    simpa using key t g.components this.1 this.2 (by have := h.components; omega) (le_refl _)
  | none =>
    have hl : (g.components ++ [Component.empty]).length < 2 ^ 32 := by
      have := h.components
      simp only [List.length_append, List.length_singleton]; omega
    simp only [toU32_of hl, ok_bind, pure_eq_ok]
    have := key (g.components ++ [Component.empty]).length (g.components ++ [Component.empty]) (by simp) (le_refl _)
      (by have := h.components; simp; omega) (by simp)
    simpa using this

theorem Graph.pushIncidentConstraint_ok {g : Graph} {n : Nat} (h : g.elements.length = n) (c : Nat) (es : List Nat)
    (hes : ∀ e ∈ es, e < n) :
    ∃ els, g.pushIncidentConstraint es c = .ok { g with elements := els } ∧ els.length = n := by
  obtain ⟨els, h1, h2⟩ := foldlM_ok (fun els : List GElement => els.length = n)
    (fun (es : List GElement) (e : Nat) => do
      let el ← idx es e
      setIdx es e { el with incidentConstraints := el.incidentConstraints ++ [c] }) es g.elements h
    (by
      intro els e he hl
      obtain ⟨el, hel⟩ := getElem?_exists (l := els) (i := e) (by rw [hl]; exact hes e he)
      exact ⟨_, by rw [idx_of hel, ok_bind, setIdx_of _ (by rw [hl]; exact hes e he)], by simp [hl]⟩)
  exact ⟨els, by unfold Graph.pushIncidentConstraint; rw [h1]; rfl, h2⟩

theorem Graph.addConstraint_ok {g : Graph} {n m : Nat} (h : GraphShape g n m) (hm : m + 1 < 2 ^ 32)
    (v : Nat) (es : List Nat) (hes : ∀ e ∈ es, e < n) :
    ∃ g', g.addConstraint v es = .ok (m, g') ∧ GraphShape g' n (m + 1) ∧ g'.constraints = g.constraints ++ [⟨v, es⟩] := by
  obtain ⟨g1, h1, h2, h3, h4, h5, h6⟩ := Graph.mergeConnectedComponents_ok h hm m es hes
  obtain ⟨els, h7, h8⟩ := Graph.pushIncidentConstraint_ok (g := g1) (n := n) (by rw [h2, h.elements]) m es hes
  refine ⟨{ g1 with elements := els, constraints := g1.constraints ++ [⟨v, es⟩] }, ?_, ?_, ?_⟩
  · unfold Graph.addConstraint
    rw [h.constraints, toU32_of (by omega), ok_bind, h1, ok_bind, h7]
    rfl
  · exact ⟨h8, h4, by simp [h3, h.constraints], h5, h6⟩
  · simp [h3]

end Fiksi
