import Verif.Props.ClusterJacobian
import Verif.Props.Success
import Verif.Proofs.OwnedOnce
/-!
# What a step of recursive assembly does to the values
-/
namespace Fiksi

set_option linter.unusedSectionVars false
variable {F : Type} [Add F] [Sub F] [Mul F] [Div F] [Neg F] [Zero F] [One F] [FloatOps F]
open Spec

/-! ## Rows -/

theorem setIdx_get {α : Type} {l l' : List α} {i : Nat} {a : α} (h : setIdx l i a = .ok l') : l'[i]? = some a ∧ ∀ j, j ≠ i → l'[j]? = l[j]? := by
  rw [setIdx_eq_ok] at h
  obtain ⟨h1, rfl⟩ := h
  exact ⟨List.getElem?_set_self h1, fun j hj => List.getElem?_set_ne (Ne.symm hj)⟩

theorem expr_rows {cs : ClusteredSystem} {exprs : List (Expr ℝ)} {values : List ℝ} : ∀ (l : List Nat) (k : Nat) {res res' : List ℝ},
    (l.zipIdx k).foldlM (cs.exprResidual exprs values) res = .ok res' →
    (∀ j, j < cs.numPoseExpressions + k → res'[j]? = res[j]?) ∧
      ∀ id ∈ l, ∃ e y j, exprs[id]? = some e ∧ e.calculateResidual (cs.variable values) = .ok y ∧ cs.numPoseExpressions + k ≤ j ∧ res'[j]? = some y := by
  intro l
  induction l with
  | nil =>
    intro k res res' h
    cases h
    exact ⟨fun _ _ => rfl, by simp⟩
  | cons a l ih =>
    intro k res res' h
    rw [List.zipIdx_cons, List.foldlM_cons, bind_eq_ok] at h
    obtain ⟨res1, h1, h2⟩ := h
    simp only [ClusteredSystem.exprResidual, bind_eq_ok, idx_eq_ok] at h1
    obtain ⟨e, h3, vars, h4, rg, h5, h6⟩ := h1
    obtain ⟨g1, g2⟩ := setIdx_get h6
    obtain ⟨i1, i2⟩ := ih (k + 1) h2
    refine ⟨fun j hj => by rw [i1 j (by omega), g2 j (by omega)], fun id hid => ?_⟩
    rcases List.mem_cons.1 hid with rfl | hid
    · refine ⟨e, rg.1, cs.numPoseExpressions + k, h3, ?_, le_rfl, by rw [i1 _ (by omega)]; exact g1⟩
      rw [Expr.calculateResidual, bind_eq_ok]
      refine ⟨vars.map Variable.value, ?_, by rw [h5]; rfl⟩
      have key : ∀ (vs : List Nat) (xs : List (Variable ℝ)), vs.mapM (cs.variable values) = .ok xs →
          vs.mapM (fun v => do pure (← cs.variable values v).value) = .ok (xs.map Variable.value) := by
        intro vs
        induction vs with
        | nil => intro xs h; cases h; rfl
        | cons v vs ihv =>
          intro xs h
          simp only [List.mapM_cons, bind_eq_ok] at h
          obtain ⟨x, h7, ys, h8, h9⟩ := h
          cases h9
          simp only [List.mapM_cons, h7, ok_bind, ihv _ h8]
          rfl
      exact key _ _ h4
    · obtain ⟨e', y, j, h7, h8, h9, h10⟩ := i2 id hid
      exact ⟨e', y, j, h7, h8, by omega, h10⟩

theorem point_rows {cs : ClusteredSystem} {elements : List EncodedElement} {T values : List ℝ} {pose : Pose2D ℝ} : ∀ (l : List Nat) {st st' : Nat × List ℝ},
    l.foldlM (cs.pointResidual elements T values pose) st = .ok st' →
    st'.1 = st.1 + 2 * l.length ∧ (∀ j, j < st.1 ∨ st'.1 ≤ j → st'.2[j]? = st.2[j]?) ∧
      ∀ p ∈ l, ∃ x y u x' y', cs.pointTerm elements T values p = .ok ((x, y), u, (x', y')) ∧
        (pose.transformPoint x y).1 - x' ∈ st'.2 ∧ (pose.transformPoint x y).2 - y' ∈ st'.2 ∧
        ∃ j, st.1 ≤ j ∧ j + 1 < st'.1 ∧ st'.2[j]? = some ((pose.transformPoint x y).1 - x') ∧ st'.2[j + 1]? = some ((pose.transformPoint x y).2 - y') := by
  intro l
  induction l with
  | nil =>
    intro st st' h
    cases h
    exact ⟨rfl, fun _ _ => rfl, by simp⟩
  | cons a l ih =>
    intro st st' h
    rw [List.foldlM_cons, bind_eq_ok] at h
    obtain ⟨st1, h1, h2⟩ := h
    simp only [ClusteredSystem.pointResidual, bind_eq_ok] at h1
    obtain ⟨⟨⟨x, y⟩, u, x', y'⟩, h3, r1, h4, r2, h5, h6⟩ := h1
    cases h6
    obtain ⟨a1, a2⟩ := setIdx_get h4
    obtain ⟨b1, b2⟩ := setIdx_get h5
    obtain ⟨i1, i2, i3⟩ := ih h2
    simp only at i1 i2 i3
    have e1 : st'.2[st.1]? = some ((pose.transformPoint x y).1 - x') := by rw [i2 _ (.inl (by omega)), b2 _ (by omega)]; exact a1
    have e2 : st'.2[st.1 + 1]? = some ((pose.transformPoint x y).2 - y') := by rw [i2 _ (.inl (by omega))]; exact b1
    refine ⟨by rw [i1, List.length_cons]; omega, fun j hj => ?_, fun p hp => ?_⟩
    · rw [i2 j (by omega), b2 j (by omega), a2 j (by omega)]
    · rcases List.mem_cons.1 hp with rfl | hp
      · exact ⟨x, y, u, x', y', h3, List.mem_of_getElem? e1, List.mem_of_getElem? e2, st.1, le_rfl, by omega, e1, e2⟩
      · obtain ⟨x, y, u, x', y', p1, p2, p3, j, p4, p5, p6⟩ := i3 p hp
        exact ⟨x, y, u, x', y', p1, p2, p3, j, by omega, p5, p6⟩

theorem cluster_rows {cs : ClusteredSystem} {elements : List EncodedElement} {T values : List ℝ} : ∀ (l : List (Nat × List Nat)) (k : Nat) {st st' : Nat × List ℝ},
    (l.zipIdx k).foldlM (fun (st : Nat × List ℝ) (ck : (Nat × List Nat) × Nat) => do
        let pose ← poseAt values ck.2
        ck.1.2.foldlM (cs.pointResidual elements T values pose) st) st = .ok st' →
    st'.1 = st.1 + 2 * countPoints l ∧ (∀ j, j < st.1 ∨ st'.1 ≤ j → st'.2[j]? = st.2[j]?) ∧
      ∀ i q, l[i]? = some q → ∃ pose, poseAt values (k + i) = .ok pose ∧ ∀ p ∈ q.2, ∃ x y u x' y', cs.pointTerm elements T values p = .ok ((x, y), u, (x', y')) ∧
        (pose.transformPoint x y).1 - x' ∈ st'.2 ∧ (pose.transformPoint x y).2 - y' ∈ st'.2 := by
  intro l
  induction l with
  | nil =>
    intro k st st' h
    cases h
    exact ⟨rfl, fun _ _ => rfl, by simp⟩
  | cons a l ih =>
    intro k st st' h
    rw [List.zipIdx_cons, List.foldlM_cons, bind_eq_ok] at h
    obtain ⟨st1, h1, h2⟩ := h
    rw [bind_eq_ok] at h1
    obtain ⟨pose, h3, h4⟩ := h1
    obtain ⟨p1, p2, p3⟩ := point_rows _ h4
    simp only at p1
    obtain ⟨i1, i2, i3⟩ := ih (k + 1) h2
    have hc : countPoints (a :: l) = a.2.length + countPoints l := by simp [countPoints]
    refine ⟨by rw [i1, p1, hc]; omega, fun j hj => ?_, fun i q hq => ?_⟩
    · rw [i2 j (by omega), p2 j (by omega)]
    · cases i with
      | zero =>
        simp only [List.getElem?_cons_zero, Option.some.injEq] at hq
        subst hq
        refine ⟨pose, h3, fun p hp => ?_⟩
        obtain ⟨x, y, u, x', y', q1, -, -, j, q4, q5, q6, q7⟩ := p3 p hp
        refine ⟨x, y, u, x', y', q1, ?_, ?_⟩
        · rw [← i2 j (.inl (by omega))] at q6
          exact List.mem_of_getElem? q6
        · rw [← i2 (j + 1) (.inl (by omega))] at q7
          exact List.mem_of_getElem? q7
      | succ i =>
        simp only [List.getElem?_cons_succ] at hq
        obtain ⟨pose', h5, h6⟩ := i3 i q hq
        exact ⟨pose', by rw [show k + (i + 1) = k + 1 + i by omega]; exact h5, h6⟩

/-- The residuals of a clustered system, one by one. -/
theorem clustered_residuals {s : System ℝ} {T : List ℝ} {step : RecombinationStep} {cs : ClusteredSystem} {start : List ℝ}
    (hb : ClusteredSystem.build s T step = .ok (cs, start)) {exprs : List (Expr ℝ)} {values r : List ℝ} (hr : (cs.problem s exprs T).residuals values = .ok r) :
    (∀ id ∈ cs.expressions, ∃ e y, exprs[id]? = some e ∧ e.calculateResidual (cs.variable values) = .ok y ∧ y ∈ r) ∧
      ∀ i q, cs.clusters[i]? = some q → ∃ pose, poseAt values i = .ok pose ∧ ∀ p ∈ q.2, ∃ x y u x' y', cs.pointTerm s.elements T values p = .ok ((x, y), u, (x', y')) ∧
        (pose.transformPoint x y).1 - x' ∈ r ∧ (pose.transformPoint x y).2 - y' ∈ r := by
  obtain ⟨hc, -⟩ := build_counts hb
  change cs.calculateResiduals s exprs T values = .ok r at hr
  rw [calculateResiduals_eq, bind_eq_ok] at hr
  obtain ⟨res, h1, h2⟩ := hr
  rw [bind_eq_ok] at h2
  obtain ⟨⟨n, res'⟩, h2, h3⟩ := h2
  cases h3
  obtain ⟨-, e2⟩ := expr_rows _ 0 h1
  obtain ⟨c1, c2, c3⟩ := cluster_rows _ 0 h2
  simp only [Nat.zero_add] at c1 c2 c3
  refine ⟨fun id hid => ?_, fun i q hq => ?_⟩
  · obtain ⟨e, y, j, g1, g2, g3, g4⟩ := e2 id hid
    refine ⟨e, y, g1, g2, ?_⟩
    rw [← c2 j (.inr (by omega))] at g4
    exact List.mem_of_getElem? g4
  · exact c3 i q hq

/-! ## Variables -/

/-- Different points and lengths have different variables. -/
def Separate (elements : List EncodedElement) : Prop := ∀ (i j : Nat) (a b : EncodedElement) (v : Nat), elements[i]? = some a → elements[j]? = some b →
  (a.isPoint = true ∨ ∃ k, a = .length k) → (b.isPoint = true ∨ ∃ k, b = .length k) → v ∈ a.variableIndices → v ∈ b.variableIndices → i = j

theorem Separate.apart {elements : List EncodedElement} (h : Separate elements) : Apart elements := by
  intro k hk
  obtain ⟨i, hi⟩ := List.mem_iff_getElem?.1 hk
  refine ⟨fun hc => ?_, fun hc => ?_⟩
  · obtain ⟨j, hj⟩ := List.mem_iff_getElem?.1 hc
    have := h i j _ _ k hi hj (.inl rfl) (.inr ⟨k, rfl⟩) (by simp [EncodedElement.variableIndices]) (by simp [EncodedElement.variableIndices])
    subst this
    rw [hi] at hj
    cases hj
  · obtain ⟨j, hj⟩ := List.mem_iff_getElem?.1 hc
    have := h i j _ _ (k + 1) hi hj (.inl rfl) (.inl rfl) (by simp [EncodedElement.variableIndices]) (by simp [EncodedElement.variableIndices])
    subst this
    rw [hi] at hj
    simp at hj

theorem Rel.separate {F : Type} {s : System F} {st : Store F} (hr : Rel s st) : Separate s.elements := by
  intro i j a b v ha hb pa pb va vb
  have own : ∀ {i : Nat} {a : EncodedElement}, s.elements[i]? = some a → (a.isPoint = true ∨ ∃ k, a = .length k) → v ∈ a.variableIndices → s.variableToPrimitive[v]? = some i := by
    intro i a ha pa va
    obtain ⟨p, h1, h2⟩ := hr.owner_of_var ha va
    have hi : i < st.elems.length := by rw [← hr.elements_length]; exact lt_of_getElem? ha
    obtain ⟨e, he⟩ : ∃ e, st.elems[i]? = some e := ⟨_, List.getElem?_eq_getElem hi⟩
    rw [hr.element_at he] at ha
    cases ha
    have : p = i := by
      rw [Store.primitives, he] at h1
      cases e with
      | point x y => simpa using h1
      | length x => simpa using h1
      | line p q => simp [encElem, EncodedElement.isPoint] at pa
      | circle p q => simp [encElem, EncodedElement.isPoint] at pa
    rw [← this]
    exact h2
  have h1 := own ha pa va
  rw [own hb pb vb] at h1
  cases h1
  rfl

/-- What `build` puts into the mapping for the elements `E`. -/
structure Mapped (elements : List EncodedElement) (E : List Nat) (mapping : IMap Nat Nat) : Prop where
  keys : mapping.keys.Nodup
  point : ∀ e ∈ E, ∀ k, elements[e]? = some (.point k) → ∃ u, mapping.get? k = some u ∧ mapping.get? (k + 1) = some (u + 1)
  length : ∀ e ∈ E, ∀ k, elements[e]? = some (.length k) → ∃ u, mapping.get? k = some u
  only : ∀ v ∈ mapping.keys, ∃ e ∈ E, ∃ el, elements[e]? = some el ∧ (el.isPoint = true ∨ ∃ k, el = .length k) ∧ v ∈ el.variableIndices

theorem Mapped.add {elements : List EncodedElement} (hsep : Separate elements) {T : List F} {E : List Nat} {st st' : IMap Nat Nat × List F} {i : Nat}
    (hi : Mapped elements E st.1) (h : addElementVariables elements T st i = .ok st') : Mapped elements (E ++ [i]) st'.1 := by
  rw [addElementVariables, bind_eq_ok] at h
  obtain ⟨el, h4, h3⟩ := h
  rw [idx_eq_ok] at h4
  cases el with
  | length k =>
    simp only [bind_eq_ok, idx_eq_ok] at h3
    obtain ⟨x, h5, h3⟩ := h3
    cases h3
    refine ⟨IMap.nodup_keys_insert _ _ _ hi.keys, fun e he k' hk' => ?_, fun e he k' hk' => ?_, fun v hv => ?_⟩
    · have hne : ∀ v ∈ (EncodedElement.point k').variableIndices, v ≠ k := by
        rintro v hv rfl
        have := hsep e i _ _ v hk' h4 (.inl rfl) (.inr ⟨v, rfl⟩) hv (by simp [EncodedElement.variableIndices])
        subst this
        rw [h4] at hk'
        cases hk'
      have he : e ∈ E := by
        rcases List.mem_append.1 he with he | he
        · exact he
        · rw [List.mem_singleton.1 he, h4] at hk'
          cases hk'
      obtain ⟨u, g1, g2⟩ := hi.point e he k' hk'
      exact ⟨u, by rw [IMap.get?_insert_ne _ _ (hne k' (by simp [EncodedElement.variableIndices]))]; exact g1,
        by rw [IMap.get?_insert_ne _ _ (hne (k' + 1) (by simp [EncodedElement.variableIndices]))]; exact g2⟩
    · rw [IMap.get?_insert]
      split
      · exact ⟨_, rfl⟩
      · rename_i hne
        rcases List.mem_append.1 he with he | he
        · exact hi.length e he k' hk'
        · rw [List.mem_singleton.1 he, h4] at hk'
          cases hk'
          exact absurd rfl hne
    · rcases (IMap.mem_keys_insert _ _ _ _).1 hv with rfl | hv
      · exact ⟨i, by simp, _, h4, .inr ⟨v, rfl⟩, by simp [EncodedElement.variableIndices]⟩
      · obtain ⟨e, h6, h7⟩ := hi.only v hv
        exact ⟨e, by simp [h6], h7⟩
  | point k =>
    simp only [bind_eq_ok, idx_eq_ok] at h3
    obtain ⟨x, h5, y, h6, h3⟩ := h3
    cases h3
    refine ⟨IMap.nodup_keys_insert _ _ _ (IMap.nodup_keys_insert _ _ _ hi.keys), fun e he k' hk' => ?_, fun e he k' hk' => ?_, fun v hv => ?_⟩
    · by_cases hk : k' = k
      · subst hk
        exact ⟨st.2.length, by rw [IMap.get?_insert_ne _ _ (by omega), IMap.get?_insert_self], by rw [IMap.get?_insert_self]⟩
      · have hne : ∀ v ∈ (EncodedElement.point k').variableIndices, v ∉ (EncodedElement.point k).variableIndices := by
          intro v hv hv'
          have := hsep e i _ _ v hk' h4 (.inl rfl) (.inl rfl) hv hv'
          subst this
          rw [h4] at hk'
          cases hk'
          exact hk rfl
        simp only [EncodedElement.variableIndices, List.mem_cons, List.not_mem_nil, or_false, forall_eq_or_imp, forall_eq, not_or] at hne
        have he : e ∈ E := by
          rcases List.mem_append.1 he with he | he
          · exact he
          · rw [List.mem_singleton.1 he, h4] at hk'
            cases hk'
            exact absurd rfl hk
        obtain ⟨u, g1, g2⟩ := hi.point e he k' hk'
        exact ⟨u, by rw [IMap.get?_insert_ne _ _ hne.1.2, IMap.get?_insert_ne _ _ hne.1.1]; exact g1,
          by rw [IMap.get?_insert_ne _ _ hne.2.2, IMap.get?_insert_ne _ _ hne.2.1]; exact g2⟩
    · rw [IMap.get?_insert]
      split
      · exact ⟨_, rfl⟩
      · rw [IMap.get?_insert]
        split
        · exact ⟨_, rfl⟩
        · rcases List.mem_append.1 he with he | he
          · exact hi.length e he k' hk'
          · rw [List.mem_singleton.1 he, h4] at hk'
            cases hk'
    · rcases (IMap.mem_keys_insert _ _ _ _).1 hv with rfl | hv
      · exact ⟨i, by simp, _, h4, .inl rfl, by simp [EncodedElement.variableIndices]⟩
      · rcases (IMap.mem_keys_insert _ _ _ _).1 hv with rfl | hv
        · exact ⟨i, by simp, _, h4, .inl rfl, by simp [EncodedElement.variableIndices]⟩
        · obtain ⟨e, h6, h7⟩ := hi.only v hv
          exact ⟨e, by simp [h6], h7⟩
  | line a b =>
    cases h3
    refine ⟨hi.keys, fun e he k' hk' => ?_, fun e he k' hk' => ?_, fun v hv => ?_⟩
    · rcases List.mem_append.1 he with he | he
      · exact hi.point e he k' hk'
      · rw [List.mem_singleton.1 he, h4] at hk'
        cases hk'
    · rcases List.mem_append.1 he with he | he
      · exact hi.length e he k' hk'
      · rw [List.mem_singleton.1 he, h4] at hk'
        cases hk'
    · obtain ⟨e, h6, h7⟩ := hi.only v hv
      exact ⟨e, by simp [h6], h7⟩
  | circle a b =>
    cases h3
    refine ⟨hi.keys, fun e he k' hk' => ?_, fun e he k' hk' => ?_, fun v hv => ?_⟩
    · rcases List.mem_append.1 he with he | he
      · exact hi.point e he k' hk'
      · rw [List.mem_singleton.1 he, h4] at hk'
        cases hk'
    · rcases List.mem_append.1 he with he | he
      · exact hi.length e he k' hk'
      · rw [List.mem_singleton.1 he, h4] at hk'
        cases hk'
    · obtain ⟨e, h6, h7⟩ := hi.only v hv
      exact ⟨e, by simp [h6], h7⟩

theorem build_mapped {s : System F} (hsep : Separate s.elements) {T : List F} {step : RecombinationStep} {cs : ClusteredSystem} {values : List F}
    (h : ClusteredSystem.build s T step = .ok (cs, values)) : Mapped s.elements cs.stepPlusFrontierElements cs.mapping := by
  simp only [ClusteredSystem.build, bind_eq_ok] at h
  obtain ⟨es, -, reach, -, elements, -, ⟨clusters, np⟩, -, ⟨mapping, vs⟩, h2, h⟩ := h
  cases h
  have key : ∀ (l E : List Nat) (st st' : IMap Nat Nat × List F), Mapped s.elements E st.1 → l.foldlM (addElementVariables s.elements T) st = .ok st' →
      Mapped s.elements (E ++ l) st'.1 := by
    intro l
    induction l with
    | nil => intro E st st' hi h; cases h; simpa using hi
    | cons a l ih =>
      intro E st st' hi h
      rw [List.foldlM_cons, bind_eq_ok] at h
      obtain ⟨st1, h3, h4⟩ := h
      have := ih (E ++ [a]) st1 st' (hi.add hsep h3) h4
      simpa using this
  have := key elements [] _ _ ⟨by simp [IMap.keys], by simp, by simp, by simp [IMap.keys]⟩ h2
  simpa using this

/-- The points that are tied to poses are points of the problem. -/
theorem build_tied {s : System F} {T : List F} {step : RecombinationStep} {cs : ClusteredSystem} {values : List F}
    (h : ClusteredSystem.build s T step = .ok (cs, values)) : ∀ q ∈ cs.clusters, ∀ p ∈ q.2, p ∈ cs.stepPlusFrontierElements ∧ (∃ k, s.elements[p]? = some (.point k)) ∧
      ∃ l, step.onFrontiers.get? p = some l ∧ q.1 ∈ l := by
  simp only [ClusteredSystem.build, bind_eq_ok] at h
  obtain ⟨es, -, reach, -, elements, -, ⟨clusters, np⟩, h1, ⟨mapping, vs⟩, -, h⟩ := h
  cases h
  refine foldlM_inv (fun st : IMap Nat (List Nat) × Nat => ∀ q ∈ st.1, ∀ p ∈ q.2, p ∈ elements ∧ (∃ k, s.elements[p]? = some (.point k)) ∧
    ∃ l, step.onFrontiers.get? p = some l ∧ q.1 ∈ l) _ _ _ _ (by simp) (fun st i st' hi hst h3 => ?_) h1
  rw [collectClusters, bind_eq_ok] at h3
  obtain ⟨el, h4, h3⟩ := h3
  rw [idx_eq_ok] at h4
  split at h3
  · cases h3; exact hst
  · rename_i cl hcl
    split at h3
    · rename_i hpt
      cases h3
      have hk : ∃ k, s.elements[i]? = some (.point k) := by
        cases el with
        | point k => exact ⟨k, h4⟩
        | length k => simp [EncodedElement.isPoint] at hpt
        | line a b => simp [EncodedElement.isPoint] at hpt
        | circle a b => simp [EncodedElement.isPoint] at hpt
      have key : ∀ (l : List Nat) (m : IMap Nat (List Nat)), (∀ c ∈ l, c ∈ cl) → (∀ q ∈ m, ∀ p ∈ q.2, p ∈ elements ∧ (∃ k, s.elements[p]? = some (.point k)) ∧
          ∃ l, step.onFrontiers.get? p = some l ∧ q.1 ∈ l) →
          ∀ q ∈ l.foldl (fun (m : IMap Nat (List Nat)) c => m.pushEntry c i) m, ∀ p ∈ q.2, p ∈ elements ∧ (∃ k, s.elements[p]? = some (.point k)) ∧
            ∃ l, step.onFrontiers.get? p = some l ∧ q.1 ∈ l := by
        intro l
        induction l with
        | nil => intro m _ hm; exact hm
        | cons c l ih =>
          intro m hl hm
          refine ih _ (fun c hc => hl c (by simp [hc])) (fun q hq p hp => ?_)
          rcases IMap.mem_insert hq with hq | rfl
          · exact hm q hq p hp
          · rcases List.mem_append.1 hp with hp | hp
            · cases hg : m.get? c with
              | none => rw [hg] at hp; simp at hp
              | some w =>
                rw [hg] at hp
                exact hm _ (IMap.mem_of_get? hg) p hp
            · rw [List.mem_singleton.1 hp]
              exact ⟨hi, hk, cl, hcl, hl c (by simp)⟩
      exact key cl st.1 (fun _ h => h) hst
    · cases h3; exact hst

/-- And the points of the problem are tied to the poses of all clusters whose frontier they are on. -/
theorem build_ties {s : System F} {T : List F} {step : RecombinationStep} {cs : ClusteredSystem} {values : List F}
    (h : ClusteredSystem.build s T step = .ok (cs, values)) {p k : Nat} (hp : p ∈ cs.stepPlusFrontierElements) (hk : s.elements[p]? = some (.point k)) {l : List Nat}
    (hl : step.onFrontiers.get? p = some l) {c : Nat} (hc : c ∈ l) : ∃ q ∈ cs.clusters, q.1 = c ∧ p ∈ q.2 := by
  have hn := (build_counts h).2
  simp only [ClusteredSystem.build, bind_eq_ok] at h
  obtain ⟨es, -, reach, -, elements, -, ⟨clusters, np⟩, h1, ⟨mapping, vs⟩, -, h⟩ := h
  cases h
  have push : ∀ (m : IMap Nat (List Nat)) (a i : Nat) {c p : Nat}, (∃ w, m.get? c = some w ∧ p ∈ w) → ∃ w, (m.pushEntry a i).get? c = some w ∧ p ∈ w := by
    rintro m a i c p ⟨w, h1, h2⟩
    rw [IMap.pushEntry, IMap.get?_insert]
    split
    · rename_i hac
      subst hac
      exact ⟨_, rfl, by simp [h1, h2]⟩
    · exact ⟨w, h1, h2⟩
  have pushes : ∀ (l : List Nat) (m : IMap Nat (List Nat)) (i : Nat) {c p : Nat}, (∃ w, m.get? c = some w ∧ p ∈ w) →
      ∃ w, (l.foldl (fun (m : IMap Nat (List Nat)) a => m.pushEntry a i) m : IMap Nat (List Nat)).get? c = some w ∧ p ∈ w := by
    intro l
    induction l with
    | nil => intro m i c p h; exact h
    | cons a l ih => intro m i c p h; exact ih _ i (push m a i h)
  have key : ∀ (E : List Nat) (st st' : IMap Nat (List Nat) × Nat), E.foldlM (collectClusters s.elements step) st = .ok st' →
      (p ∈ E ∨ ∃ w, st.1.get? c = some w ∧ p ∈ w) → ∃ w, st'.1.get? c = some w ∧ p ∈ w := by
    intro E
    induction E with
    | nil => intro st st' h hp; cases h; exact hp.resolve_left (by simp)
    | cons a E ih =>
      intro st st' h hp
      rw [List.foldlM_cons, bind_eq_ok] at h
      obtain ⟨st1, h3, h4⟩ := h
      refine ih st1 st' h4 ?_
      rw [collectClusters, bind_eq_ok] at h3
      obtain ⟨el, h5, h3⟩ := h3
      rw [idx_eq_ok] at h5
      have old : (∃ w, st.1.get? c = some w ∧ p ∈ w) → ∃ w, st1.1.get? c = some w ∧ p ∈ w := by
        intro ho
        split at h3
        · cases h3; exact ho
        · split at h3
          · cases h3; exact pushes _ _ _ ho
          · cases h3; exact ho
      rcases hp with hp | hp
      · rcases List.mem_cons.1 hp with rfl | hp
        · right
          rw [hk] at h5
          cases h5
          rw [hl] at h3
          simp only [EncodedElement.isPoint, if_true] at h3
          cases h3
          obtain ⟨l1, l2, rfl⟩ := List.append_of_mem hc
          rw [List.foldl_append, List.foldl_cons]
          refine pushes _ _ _ ?_
          rw [IMap.pushEntry]
          exact ⟨_, IMap.get?_insert_self _ _ _, by simp⟩
        · exact .inl hp
      · exact .inr (old hp)
  obtain ⟨w, h3, h4⟩ := key elements _ _ h1 (.inl hp)
  exact ⟨(c, w), IMap.mem_of_get? h3, rfl, h4⟩

/-! ## Moving owned elements -/

section
variable {s : System ℝ} {scale : ℝ} {elements : List Nat}

/-- Moving element `i` does not touch variable `v`. -/
def Clear (s : System ℝ) (elements : List Nat) (i v : Nat) : Prop := i ∉ elements → ∀ k, s.elements[i]? = some (.point k) → v ≠ k ∧ v ≠ k + 1

theorem moveElement_value {pose : Pose2D ℝ} {st st' : SolveState ℝ} {i : Nat} (h : moveElement s scale elements pose st i = .ok st') :
    (∀ v, Clear s elements i v → st'.transformed[v]? = st.transformed[v]?) ∧
      (i ∉ elements → ∀ k, s.elements[i]? = some (.point k) → ∃ x y, st.transformed[k]? = some x ∧ st.transformed[k + 1]? = some y ∧
        st'.transformed[k]? = some (pose.transformPoint x y).1 ∧ st'.transformed[k + 1]? = some (pose.transformPoint x y).2) ∧
      ∀ v, Synced scale st v → Synced scale st' v := by
  unfold moveElement at h
  split at h
  · rename_i hc
    cases h
    exact ⟨fun _ _ => rfl, fun hi => absurd (by simpa using hc) hi, fun _ h => h⟩
  · rename_i hc
    have hi : i ∉ elements := by simpa using hc
    rw [bind_eq_ok] at h
    obtain ⟨el, h1, h⟩ := h
    rw [idx_eq_ok] at h1
    cases el with
    | point k =>
      simp only [bind_eq_ok, idx_eq_ok] at h
      obtain ⟨x, hx, y, hy, t1, h2, t2, h3, v1, h4, v2, h5, h⟩ := h
      cases h
      obtain ⟨a1, a2⟩ := setIdx_get h2
      obtain ⟨b1, b2⟩ := setIdx_get h3
      obtain ⟨c1, c2⟩ := setIdx_get h4
      obtain ⟨d1, d2⟩ := setIdx_get h5
      refine ⟨fun v hv => ?_, fun _ k' hk' => ?_, fun v hv => ?_⟩
      · obtain ⟨g1, g2⟩ := hv hi k h1
        simp only
        rw [b2 v g2, a2 v g1]
      · rw [h1] at hk'
        cases hk'
        exact ⟨x, y, hx, hy, by simp only; rw [b2 _ (by omega)]; exact a1, b1⟩
      · intro z hz
        simp only at hz ⊢
        by_cases g2 : v = k + 1
        · subst g2
          rw [b1] at hz
          cases hz
          exact d1
        · rw [b2 v g2] at hz
          rw [d2 v g2]
          by_cases g1 : v = k
          · subst g1
            rw [a1] at hz
            cases hz
            exact c1
          · rw [a2 v g1] at hz
            rw [c2 v g1]
            exact hv z hz
    | length k => cases h; exact ⟨fun _ _ => rfl, fun _ k' hk' => by (rw [h1] at hk'; cases hk'), fun _ h => h⟩
    | line a b => cases h; exact ⟨fun _ _ => rfl, fun _ k' hk' => by (rw [h1] at hk'; cases hk'), fun _ h => h⟩
    | circle a b => cases h; exact ⟨fun _ _ => rfl, fun _ k' hk' => by (rw [h1] at hk'; cases hk'), fun _ h => h⟩

theorem Separate.clear (hsep : Separate s.elements) {i j k v : Nat} (hj : s.elements[j]? = some (.point k)) (hv : v = k ∨ v = k + 1) (hij : i ≠ j) : Clear s elements i v := by
  intro _ k' hk'
  have h : v ∈ (EncodedElement.point k).variableIndices := by rcases hv with rfl | rfl <;> simp [EncodedElement.variableIndices]
  constructor <;> rintro rfl
  · exact hij (hsep _ _ _ _ v hk' hj (.inl rfl) (.inl rfl) (by simp [EncodedElement.variableIndices]) h)
  · exact hij (hsep _ _ _ _ _ hk' hj (.inl rfl) (.inl rfl) (by simp [EncodedElement.variableIndices]) h)

theorem moveElements_value (hsep : Separate s.elements) {pose : Pose2D ℝ} : ∀ (l : List Nat) {st st' : SolveState ℝ}, l.foldlM (moveElement s scale elements pose) st = .ok st' →
    (∀ v, (∀ i ∈ l, Clear s elements i v) → st'.transformed[v]? = st.transformed[v]?) ∧
      (l.Nodup → ∀ i ∈ l, i ∉ elements → ∀ k, s.elements[i]? = some (.point k) → ∃ x y, st.transformed[k]? = some x ∧ st.transformed[k + 1]? = some y ∧
        st'.transformed[k]? = some (pose.transformPoint x y).1 ∧ st'.transformed[k + 1]? = some (pose.transformPoint x y).2) ∧
      ∀ v, Synced scale st v → Synced scale st' v := by
  intro l
  induction l with
  | nil =>
    intro st st' h
    cases h
    exact ⟨fun _ _ => rfl, by simp, fun _ h => h⟩
  | cons a l ih =>
    intro st st' h
    rw [List.foldlM_cons, bind_eq_ok] at h
    obtain ⟨st1, h1, h2⟩ := h
    obtain ⟨m1, m2, m3⟩ := moveElement_value h1
    obtain ⟨i1, i2, i3⟩ := ih h2
    refine ⟨fun v hv => ?_, fun hn i hi hie k hk => ?_, fun v hv => i3 v (m3 v hv)⟩
    · rw [i1 v (fun i hi => hv i (by simp [hi])), m1 v (hv a (by simp))]
    · rw [List.nodup_cons] at hn
      rcases List.mem_cons.1 hi with rfl | hi
      · obtain ⟨x, y, g1, g2, g3, g4⟩ := m2 hie k hk
        refine ⟨x, y, g1, g2, ?_, ?_⟩
        · rw [i1 k (fun j hj => hsep.clear hk (.inl rfl) (by rintro rfl; exact hn.1 hj))]
          exact g3
        · rw [i1 (k + 1) (fun j hj => hsep.clear hk (.inr rfl) (by rintro rfl; exact hn.1 hj))]
          exact g4
      · obtain ⟨x, y, g1, g2, g3, g4⟩ := i2 hn.2 i hi hie k hk
        have hai : a ≠ i := by rintro rfl; exact hn.1 hi
        rw [m1 k (hsep.clear hk (.inl rfl) hai)] at g1
        rw [m1 (k + 1) (hsep.clear hk (.inr rfl) hai)] at g2
        exact ⟨x, y, g1, g2, g3, g4⟩

theorem moveClusters_value (hsep : Separate s.elements) {owned : Nat → List Nat} {values : List ℝ} : ∀ (l : List (Nat × Nat)) {st st' : SolveState ℝ},
    l.foldlM (fun (st : SolveState ℝ) (ck : Nat × Nat) => do
      let pose ← poseAt values ck.2
      (owned ck.1).foldlM (moveElement s scale elements pose) st) st = .ok st' →
    (∀ v, (∀ ck ∈ l, ∀ i ∈ owned ck.1, Clear s elements i v) → st'.transformed[v]? = st.transformed[v]?) ∧
      ((l.flatMap (fun ck => owned ck.1)).Nodup → ∀ ck ∈ l, ∀ i ∈ owned ck.1, i ∉ elements → ∀ k, s.elements[i]? = some (.point k) → ∃ pose x y, poseAt values ck.2 = .ok pose ∧
        st.transformed[k]? = some x ∧ st.transformed[k + 1]? = some y ∧
        st'.transformed[k]? = some (pose.transformPoint x y).1 ∧ st'.transformed[k + 1]? = some (pose.transformPoint x y).2) ∧
      ∀ v, Synced scale st v → Synced scale st' v := by
  intro l
  induction l with
  | nil =>
    intro st st' h
    cases h
    exact ⟨fun _ _ => rfl, by simp, fun _ h => h⟩
  | cons a l ih =>
    intro st st' h
    rw [List.foldlM_cons, bind_eq_ok] at h
    obtain ⟨st1, h1, h2⟩ := h
    rw [bind_eq_ok] at h1
    obtain ⟨pose, h0, h1⟩ := h1
    obtain ⟨m1, m2, m3⟩ := moveElements_value hsep _ h1
    obtain ⟨i1, i2, i3⟩ := ih h2
    refine ⟨fun v hv => ?_, fun hn ck hck i hi hie k hk => ?_, fun v hv => i3 v (m3 v hv)⟩
    · rw [i1 v (fun ck hck => hv ck (by simp [hck])), m1 v (hv a (by simp))]
    · rw [List.flatMap_cons, List.nodup_append] at hn
      rcases List.mem_cons.1 hck with rfl | hck
      · obtain ⟨x, y, g1, g2, g3, g4⟩ := m2 hn.1 i hi hie k hk
        have hne : ∀ ck' ∈ l, ∀ j ∈ owned ck'.1, j ≠ i := fun ck' hck' j hj hji => hn.2.2 i hi j (List.mem_flatMap.2 ⟨ck', hck', hj⟩) hji.symm
        refine ⟨pose, x, y, h0, g1, g2, ?_, ?_⟩
        · rw [i1 k (fun ck' hck' j hj => hsep.clear hk (.inl rfl) (hne ck' hck' j hj))]
          exact g3
        · rw [i1 (k + 1) (fun ck' hck' j hj => hsep.clear hk (.inr rfl) (hne ck' hck' j hj))]
          exact g4
      · obtain ⟨pose', x, y, g0, g1, g2, g3, g4⟩ := i2 hn.2.1 ck hck i hi hie k hk
        have hne : ∀ j ∈ owned a.1, j ≠ i := fun j hj hji => hn.2.2 j hj i (List.mem_flatMap.2 ⟨ck, hck, hi⟩) hji
        rw [m1 k (fun j hj => hsep.clear hk (.inl rfl) (hne j hj))] at g1
        rw [m1 (k + 1) (fun j hj => hsep.clear hk (.inr rfl) (hne j hj))] at g2
        exact ⟨pose', x, y, g0, g1, g2, g3, g4⟩

end

/-! ## The whole step -/

/-- Cluster number `j` of the problem of a step carries point `e`: the point is tied to the pose of the cluster, or the cluster owns it and it is no variable of the problem. -/
def ClusteredSystem.Carries (cs : ClusteredSystem) (step : RecombinationStep) (j e : Nat) : Prop :=
  ∃ q, cs.clusters[j]? = some q ∧ (e ∈ q.2 ∨ (e ∉ cs.stepPlusFrontierElements ∧ e ∈ (step.ownedElements.get? q.1).getD []))

/-- The step may move element `e`. -/
def ClusteredSystem.Moves (cs : ClusteredSystem) (step : RecombinationStep) (e : Nat) : Prop :=
  e ∈ cs.stepPlusFrontierElements ∨ ∃ q ∈ cs.clusters, e ∈ (step.ownedElements.get? q.1).getD []

theorem owned_nodup {m : IMap Nat (List Nat)} (hm : (m.flatMap Prod.snd).Nodup) {ks : List Nat} (hk : ks.Nodup) : (ks.flatMap (fun c => (m.get? c).getD [])).Nodup := by
  rw [List.nodup_flatMap] at hm ⊢
  have hget : ∀ c x, x ∈ (m.get? c).getD [] → ∃ w, (c, w) ∈ m ∧ (m.get? c).getD [] = w := by
    intro c x hx
    cases hg : m.get? c with
    | none => rw [hg] at hx; simp at hx
    | some w => exact ⟨w, IMap.mem_of_get? hg, rfl⟩
  refine ⟨fun c _ => ?_, hk.imp fun {a b} hab => ?_⟩
  · cases hg : m.get? c with
    | none => simp
    | some w => exact hm.1 _ (IMap.mem_of_get? hg)
  · intro x hxa hxb
    obtain ⟨w, h1, h2⟩ := hget a x hxa
    obtain ⟨w', h3, h4⟩ := hget b x hxb
    have : Std.Symm (Function.onFun (List.Disjoint (α := Nat)) (Prod.snd : Nat × List Nat → List Nat)) := ⟨fun p q hpq => List.Disjoint.symm hpq⟩
    have := List.Pairwise.forall (R := Function.onFun (List.Disjoint (α := Nat)) (Prod.snd : Nat × List Nat → List Nat)) hm.2 h1 h3 (fun hc => hab (congrArg Prod.fst hc))
    exact this (show x ∈ w from h2 ▸ hxa) (show x ∈ w' from h4 ▸ hxb)

/-- The values before and after a step, if the optimiser ends at residuals of at most `ε`. -/
structure StepEffect (s : System ℝ) (scale ε : ℝ) (exprs : List (Expr ℝ)) (step : RecombinationStep) (cs : ClusteredSystem) (st st' : SolveState ℝ) : Prop where
  /-- The equations of the step. -/
  solved : ∀ id ∈ cs.expressions, ∃ e r, exprs[id]? = some e ∧ e.calculateResidual (identityMap st'.transformed) = .ok r ∧ |r| ≤ ε
  /-- Clusters move as rigid bodies. -/
  rigid : ∀ j < cs.clusters.length, ∃ pose : Pose2D ℝ, ∀ e k, cs.Carries step j e → s.elements[e]? = some (.point k) →
    ∃ x y x' y', st.transformed[k]? = some x ∧ st.transformed[k + 1]? = some y ∧ st'.transformed[k]? = some x' ∧ st'.transformed[k + 1]? = some y' ∧
      |(pose.transformPoint x y).1 - x'| ≤ ε ∧ |(pose.transformPoint x y).2 - y'| ≤ ε
  /-- The rest stays where it is. -/
  still : ∀ e el, s.elements[e]? = some el → (el.isPoint = true ∨ ∃ k, el = .length k) → ¬ cs.Moves step e → ∀ v ∈ el.variableIndices, st'.transformed[v]? = st.transformed[v]?
  /-- The unscaled copies follow. -/
  synced : ∀ v, Synced scale st v → Synced scale st' v
  /-- The variables of the problem are written to both. -/
  fresh : ∀ v ∈ cs.mapping.keys, Synced scale st' v

theorem solveStep_effect {s : System ℝ} (hsep : Separate s.elements) {optimize : Optimize ℝ} {ε scale : ℝ} (hatt : optimize.Attains ε) (hε : 0 ≤ ε) {exprs : List (Expr ℝ)} {step : RecombinationStep}
    (hown : step.OwnedOnce) {st st' : SolveState ℝ} (h : solveStep optimize s scale exprs st step = .ok st') :
    ∃ cs start, ClusteredSystem.build s st.transformed step = .ok (cs, start) ∧ StepEffect s scale ε exprs step cs st st' := by
  rw [solveStep, bind_eq_ok] at h
  obtain ⟨⟨cs, start⟩, hb, h⟩ := h
  refine ⟨cs, start, hb, ?_⟩
  simp only at h
  rw [bind_eq_ok] at h
  obtain ⟨values, hopt, h⟩ := h
  rw [bind_eq_ok] at h
  obtain ⟨T1, hT1, h⟩ := h
  rw [bind_eq_ok] at h
  obtain ⟨V1, hV1, h⟩ := h
  obtain ⟨r, hr, hrε⟩ := hatt _ _ _ _ hopt
  obtain ⟨res1, res2⟩ := clustered_residuals hb hr
  have hmap := build_mapped hsep hb
  have hkeys : (cs.mapping.map Prod.fst).Nodup := hmap.keys
  obtain ⟨m1, m2, m3⟩ := moveClusters_value (owned := fun c => (step.ownedElements.get? c).getD []) hsep _ h
  simp only at m1 m2 m3
  have wV : ∀ v u, cs.mapping.get? v = some u → ∃ x, values[u]? = some x ∧ V1[v]? = some (scale * x) := fun v u hu => writeVars_values hkeys hV1 _ (IMap.mem_of_get? hu)
  have wT : ∀ v u, cs.mapping.get? v = some u → ∃ x, values[u]? = some x ∧ T1[v]? = some x := by
    intro v u hu
    obtain ⟨x, h1, -⟩ := wV v u hu
    exact ⟨x, h1, (writeTransformed_values hkeys hT1 _ (IMap.mem_of_get? hu)).trans h1⟩
  have fT : ∀ v, v ∉ cs.mapping.keys → T1[v]? = st.transformed[v]? := fun v hv => (writeTransformed_frame (W := (· ∈ cs.mapping.keys)) (fun p hp => List.mem_map_of_mem hp) hT1).2 v hv
  have fV : ∀ v, v ∉ cs.mapping.keys → V1[v]? = st.vars[v]? := fun v hv => (writeVars_frame (W := (· ∈ cs.mapping.keys)) (fun p hp => List.mem_map_of_mem hp) hV1).2 v hv
  have hclear : ∀ e ∈ cs.stepPlusFrontierElements, ∀ el, s.elements[e]? = some el → (el.isPoint = true ∨ ∃ k, el = .length k) → ∀ v ∈ el.variableIndices,
      ∀ i, Clear s cs.stepPlusFrontierElements i v := by
    intro e he el hel hp v hv i hi k hk
    constructor <;> rintro rfl
    · exact hi (hsep e i _ _ v hel hk hp (.inl rfl) hv (by simp [EncodedElement.variableIndices]) ▸ he)
    · exact hi (hsep e i _ _ _ hel hk hp (.inl rfl) hv (by simp [EncodedElement.variableIndices]) ▸ he)
  have hmapped : ∀ v u, cs.mapping.get? v = some u → ∃ x, values[u]? = some x ∧ st'.transformed[v]? = some x := by
    intro v u hu
    obtain ⟨x, h1, h2⟩ := wT v u hu
    refine ⟨x, h1, ?_⟩
    obtain ⟨e, he, el, hel, hp, hv⟩ := hmap.only v ((IMap.mem_keys_iff _ _).2 ⟨u, hu⟩)
    rw [m1 v (fun ck _ i _ => hclear e he el hel hp v hv i)]
    exact h2
  have hkv : ∀ e k, e ∉ cs.stepPlusFrontierElements → s.elements[e]? = some (.point k) → k ∉ cs.mapping.keys ∧ k + 1 ∉ cs.mapping.keys := by
    intro e k he hk
    constructor <;> intro hc
    · obtain ⟨e', he', el, hel, hp, hv⟩ := hmap.only _ hc
      exact he (hsep e e' _ _ k hk hel (.inl rfl) hp (by simp [EncodedElement.variableIndices]) hv ▸ he')
    · obtain ⟨e', he', el, hel, hp, hv⟩ := hmap.only _ hc
      exact he (hsep e e' _ _ (k + 1) hk hel (.inl rfl) hp (by simp [EncodedElement.variableIndices]) hv ▸ he')
  have hfresh : ∀ v ∈ cs.mapping.keys, Synced scale { st with vars := V1, transformed := T1 } v := by
    intro v hk x hx
    simp only at hx ⊢
    obtain ⟨u, hu⟩ := (IMap.mem_keys_iff _ _).1 hk
    obtain ⟨a, a1, a2⟩ := wT v u hu
    obtain ⟨b, b1, b2⟩ := wV v u hu
    rw [a1] at b1
    cases b1
    rw [hx] at a2
    cases a2
    exact b2
  refine ⟨fun id hid => ?_, fun j hj => ?_, fun e el hel hp hm v hv => ?_, fun v hv => m3 v ?_, fun v hv => m3 v (hfresh v hv)⟩
  · obtain ⟨e, y, h1, h2, h3⟩ := res1 id hid
    refine ⟨e, y, h1, calculateResidual_mono_on (fun v hv var hvar => ?_) h2, hrε y h3⟩
    rw [ClusteredSystem.variable, bind_eq_ok] at hvar
    obtain ⟨u, h4, hvar⟩ := hvar
    rw [unwrap_eq_ok] at h4
    rw [bind_eq_ok] at hvar
    obtain ⟨x, h5, h6⟩ := hvar
    rw [idx_eq_ok] at h5
    cases h6
    obtain ⟨x', h7, h8⟩ := hmapped v u h4
    rw [h5] at h7
    cases h7
    exact h8
  · obtain ⟨q, hq⟩ : ∃ q, cs.clusters[j]? = some q := ⟨_, List.getElem?_eq_getElem hj⟩
    obtain ⟨pose, hpose, hpts⟩ := res2 j q hq
    refine ⟨pose, fun e k hc hk => ?_⟩
    obtain ⟨q', hq', hc⟩ := hc
    rw [hq] at hq'
    cases hq'
    rcases hc with hc | ⟨hc1, hc2⟩
    · obtain ⟨x, y, u, x', y', g1, g2, g3⟩ := hpts e hc
      rw [ClusteredSystem.pointTerm, bind_eq_ok] at g1
      obtain ⟨el, g4, g1⟩ := g1
      rw [idx_eq_ok, hk] at g4
      cases g4
      simp only [bind_eq_ok, idx_eq_ok, unwrap_eq_ok] at g1
      obtain ⟨a, g5, b, g6, u', g7, a', g8, b', g9, g10⟩ := g1
      cases g10
      obtain ⟨z, z1, z2⟩ := hmapped k u g7
      rw [g8] at z1
      cases z1
      obtain ⟨u2, u3, u4⟩ := hmap.point e (build_tied hb q (List.mem_of_getElem? hq) e hc).1 k hk
      rw [g7] at u3
      cases u3
      obtain ⟨w, w1, w2⟩ := hmapped (k + 1) (u + 1) u4
      rw [g9] at w1
      cases w1
      exact ⟨x, y, x', y', g5, g6, z2, w2, hrε _ g2, hrε _ g3⟩
    · have hn : ((cs.clusters.keys.zipIdx).flatMap (fun ck : Nat × Nat => (step.ownedElements.get? ck.1).getD [])).Nodup := by
        have := owned_nodup hown (build_counts hb).2
        rw [← List.zipIdx_map_fst 0 cs.clusters.keys, List.flatMap_map] at this
        exact this
      have hck : (q.1, j) ∈ cs.clusters.keys.zipIdx := by
        rw [List.mk_mem_zipIdx_iff_getElem?, IMap.keys, List.getElem?_map, hq]
        rfl
      obtain ⟨pose', x, y, g0, g1, g2, g3, g4⟩ := m2 hn _ hck e hc2 hc1 k hk
      simp only at g0
      rw [hpose] at g0
      cases g0
      obtain ⟨k1, k2⟩ := hkv e k hc1 hk
      rw [fT k k1] at g1
      rw [fT (k + 1) k2] at g2
      exact ⟨x, y, _, _, g1, g2, g3, g4, by simpa using hε, by simpa using hε⟩
  · have he : e ∉ cs.stepPlusFrontierElements := fun hc => hm (.inl hc)
    have hvk : v ∉ cs.mapping.keys := by
      intro hc
      obtain ⟨e', he', el', hel', hp', hv'⟩ := hmap.only _ hc
      exact he (hsep e e' _ _ v hel hel' hp hp' hv hv' ▸ he')
    rw [m1 v (fun ck hck i hi hie k hk => ?_), fT v hvk]
    have hne : i ≠ e := by
      rintro rfl
      refine hm (.inr ?_)
      have := mem_zipIdx_fst hck
      obtain ⟨q, hq, hqc⟩ := List.mem_map.1 this
      exact ⟨q, hq, by rw [hqc]; exact hi⟩
    constructor <;> rintro rfl
    · exact hne (hsep i e _ _ _ hk hel (.inl rfl) hp (by simp [EncodedElement.variableIndices]) hv)
    · exact hne (hsep i e _ _ _ hk hel (.inl rfl) hp (by simp [EncodedElement.variableIndices]) hv)
  · intro x hx
    simp only at hx ⊢
    by_cases hk : v ∈ cs.mapping.keys
    · exact hfresh v hk x hx
    · rw [fT v hk] at hx
      rw [fV v hk]
      exact hv x hx

end Fiksi
