import Verif.Proofs.Fronted
import Verif.Props.Rigid
/-!
# The problems of recursive assembly are well formed
-/
namespace Fiksi

set_option linter.unusedSectionVars false
variable {F : Type} [Add F] [Sub F] [Mul F] [Div F] [Neg F] [Zero F] [One F] [FloatOps F]
open Spec

theorem reachClusters_nodup {r : List Nat} (hr : r.Nodup) (o : Option (List Nat)) : (reachClusters r o).Nodup := by
  unfold reachClusters
  generalize o.getD [] = l
  induction l generalizing r with
  | nil => exact hr
  | cons a l ih =>
    rw [List.foldl_cons]
    split
    · exact ih hr
    · rename_i ha
      refine ih (List.nodup_append.2 ⟨hr, by simp, fun x hx y hy => ?_⟩)
      rw [List.mem_singleton.1 hy]
      rintro rfl
      exact ha (by simpa using hx)

section
variable {elements : List EncodedElement} {step : RecombinationStep}

/-- All clusters that are listed for elements. -/
def RecombinationStep.listing (step : RecombinationStep) : List Nat := step.onFrontiers.flatMap Prod.snd

theorem mem_listing {c e : Nat} (h : OnFrontier step c e) : c ∈ step.listing := by
  obtain ⟨l, h1, h2⟩ := h
  exact List.mem_flatMap.2 ⟨_, IMap.mem_of_get? h1, h2⟩

/-- What holds in the loops of `build`. -/
structure FollowOk (elements : List EncodedElement) (step : RecombinationStep) (st : List Nat × List Nat) : Prop where
  nodup : st.1.Nodup
  reached : ∀ c ∈ st.1, ∃ e < elements.length, OnFrontier step c e
  real : ∀ e ∈ st.2, e < elements.length
  once : st.2.Nodup

theorem FollowOk.length_le {st : List Nat × List Nat} (h : FollowOk elements step st) : st.1.length ≤ step.listing.length :=
  (h.nodup.subperm fun c hc => by obtain ⟨e, -, he⟩ := h.reached c hc; exact mem_listing he).length_le

theorem initialClusters_ok (hel : ∀ e ∈ step.elements, e < elements.length) (hn : step.elements.Nodup) :
    ∃ r, initialClusters elements step = .ok r ∧ FollowOk elements step (r, step.elements) := by
  obtain ⟨r, h1, h2⟩ := foldlM_ok (fun r : List Nat => FollowOk elements step (r, step.elements))
    (fun (reachable : List Nat) elementId => do
      let element ← idx elements elementId
      pure (if element.isPoint then reachClusters reachable (step.onFrontiers.get? elementId) else reachable)) step.elements []
    ⟨by simp, by simp, hel, hn⟩ (fun r e he hr => by
      rw [idx_of (List.getElem?_eq_getElem (hel e he)), ok_bind]
      refine ⟨_, rfl, ?_⟩
      split
      · refine ⟨reachClusters_nodup hr.nodup _, fun c hc => ?_, hr.real, hr.once⟩
        rcases mem_reachClusters.1 hc with hc | hc
        · exact hr.reached c hc
        · exact ⟨e, hel e he, hc⟩
      · exact hr)
  exact ⟨r, h1, h2⟩

theorem followElement_ok {st : List Nat × List Nat} (hs : FollowOk elements step st) {e : Nat} (he : e < elements.length) :
    ∃ st', followElement elements step st e = .ok st' ∧ FollowOk elements step st' := by
  rw [followElement, idx_of (List.getElem?_eq_getElem he), ok_bind]
  split
  · have hr : ∀ c ∈ reachClusters st.1 (step.onFrontiers.get? e), ∃ e < elements.length, OnFrontier step c e := by
      intro c hc
      rcases mem_reachClusters.1 hc with hc | hc
      · exact hs.reached c hc
      · exact ⟨e, he, hc⟩
    simp only
    split
    · rename_i hc
      simp only [Bool.and_eq_true, Bool.not_eq_true', decide_eq_true_eq] at hc
      refine ⟨_, rfl, reachClusters_nodup hs.nodup _, hr, fun x hx => ?_, List.nodup_append.2 ⟨hs.once, by simp, fun x hx y hy => ?_⟩⟩
      · rcases List.mem_append.1 hx with hx | hx
        · exact hs.real x hx
        · rw [List.mem_singleton.1 hx]; exact he
      · rw [List.mem_singleton.1 hy]
        rintro rfl
        have := hc.1
        simp [hx] at this
    · exact ⟨_, rfl, reachClusters_nodup hs.nodup _, hr, hs.real, hs.once⟩
  · exact ⟨_, rfl, hs⟩

theorem followClusters_ok (hf : Fronted elements.length step.onFrontiers step.frontierElements)
    (hreal : ∀ p ∈ step.frontierElements, ∀ v ∈ p.2, v < elements.length) :
    ∀ (fuel i : Nat) (st : List Nat × List Nat), FollowOk elements step st → i ≤ st.1.length → step.listing.length + 1 ≤ fuel + i →
      ∃ vars, followClusters elements step fuel i st = .ok vars ∧ vars.Nodup ∧ ∀ e ∈ vars, e < elements.length := by
  intro fuel
  induction fuel with
  | zero =>
    intro i st hs hi hfuel
    have := hs.length_le
    omega
  | succ fuel ih =>
    intro i st hs hi hfuel
    rw [followClusters]
    cases hg : st.1[i]? with
    | none => exact ⟨_, rfl, hs.once, hs.real⟩
    | some cluster =>
      obtain ⟨e, he, l, hl, hc⟩ := hs.reached cluster (List.mem_of_getElem? hg)
      obtain ⟨f, hfr, -⟩ := hf.listed e he l hl cluster hc
      obtain ⟨st', h1, h2, h3⟩ := foldlM_ok (fun s : List Nat × List Nat => FollowOk elements step s ∧ st.1.length ≤ s.1.length) (followElement elements step) f st
        ⟨hs, le_refl _⟩ (fun s e he hs => by
          obtain ⟨s', h1, h2⟩ := followElement_ok hs.1 (hreal _ (IMap.mem_of_get? hfr) e he)
          exact ⟨s', h1, h2, hs.2.trans (followElement_effect h1).1.length_le⟩)
      simp only [hfr, unwrap, ok_bind, h1]
      have := lt_of_getElem? hg
      exact ih (i + 1) st' h2 (by omega) (by omega)

/-- The number of clusters listed for distinct elements. -/
theorem sum_listed_le (m : IMap Nat (List Nat)) : ∀ (l : List Nat), l.Nodup → (l.map (fun e => ((m.get? e).getD []).length)).sum ≤ (m.flatMap Prod.snd).length := by
  induction m with
  | nil => intro l _; induction l with
    | nil => simp
    | cons a l ih => rename_i hn; simp [IMap.get?]
  | cons p m ih =>
    intro l hl
    rw [List.flatMap_cons, List.length_append]
    have h1 : ∀ l : List Nat, l.Nodup → (l.map (fun e => ((IMap.get? (p :: m) e).getD []).length)).sum ≤
        (if p.1 ∈ l then p.2.length else 0) + (l.map (fun e => ((IMap.get? m e).getD []).length)).sum := by
      intro l
      induction l with
      | nil => simp
      | cons a l ih2 =>
        intro hn
        rw [List.nodup_cons] at hn
        have := ih2 hn.2
        simp only [List.map_cons, List.sum_cons]
        by_cases ha : p.1 = a
        · have h3 : IMap.get? (p :: m) a = some p.2 := by simp [IMap.get?, ha]
          rw [h3]
          rw [if_neg (by rw [ha]; exact hn.1)] at this
          rw [if_pos (by simp [ha])]
          simp only [Option.getD_some]
          omega
        · have h3 : IMap.get? (p :: m) a = IMap.get? m a := by simp [IMap.get?, ha]
          rw [h3]
          have h4 : (p.1 ∈ a :: l) = (p.1 ∈ l) := by simp [ha]
          simp only [h4]
          omega
    have h2 := ih l hl
    have h3 := h1 l hl
    split at h3 <;> omega

theorem collectClusters_ok {st : IMap Nat (List Nat) × Nat} {e : Nat} (he : e < elements.length) :
    ∃ st', collectClusters elements step st e = .ok st' ∧ st'.2 ≤ st.2 + 2 * ((step.onFrontiers.get? e).getD []).length := by
  rw [collectClusters, idx_of (List.getElem?_eq_getElem he), ok_bind]
  cases hg : step.onFrontiers.get? e with
  | none => exact ⟨st, rfl, by simp⟩
  | some cl =>
    simp only
    split
    · exact ⟨_, rfl, by simp⟩
    · exact ⟨_, rfl, by simp⟩

theorem collect_ok : ∀ (l : List Nat) (st : IMap Nat (List Nat) × Nat), (∀ e ∈ l, e < elements.length) →
    ∃ st', l.foldlM (collectClusters elements step) st = .ok st' ∧ st'.2 ≤ st.2 + 2 * (l.map (fun e => ((step.onFrontiers.get? e).getD []).length)).sum := by
  intro l
  induction l with
  | nil => intro st _; exact ⟨st, rfl, by simp⟩
  | cons a l ih =>
    intro st hl
    obtain ⟨st1, h1, h2⟩ := collectClusters_ok (step := step) (st := st) (hl a (by simp))
    obtain ⟨st2, h3, h4⟩ := ih st1 (fun e he => hl e (by simp [he]))
    refine ⟨st2, by rw [List.foldlM_cons, h1, ok_bind, h3], ?_⟩
    simp only [List.map_cons, List.sum_cons]
    omega

/-- The variables of points and lengths are below `n`. -/
def VarsBelow (elements : List EncodedElement) (n : Nat) : Prop :=
  ∀ (e : Nat) (el : EncodedElement), elements[e]? = some el → ∀ v ∈ el.variableIndices, v < n

theorem addElements_ok {T : List F} (hT : VarsBelow elements T.length) : ∀ (l : List Nat) (st : IMap Nat Nat × List F), (∀ e ∈ l, e < elements.length) →
    (∀ p ∈ st.1, p.1 < T.length ∧ p.2 < st.2.length) →
    ∃ st', l.foldlM (addElementVariables elements T) st = .ok st' ∧ (∀ p ∈ st'.1, p.1 < T.length ∧ p.2 < st'.2.length) ∧
      st.2.length ≤ st'.2.length ∧ st'.2.length ≤ st.2.length + 2 * l.length := by
  intro l
  induction l with
  | nil => intro st _ h; exact ⟨st, rfl, h, le_refl _, by simp⟩
  | cons a l ih =>
    intro st hl hst
    have ha := hl a (by simp)
    obtain ⟨st1, h1, h2, h3, h4⟩ : ∃ st1, addElementVariables elements T st a = .ok st1 ∧ (∀ p ∈ st1.1, p.1 < T.length ∧ p.2 < st1.2.length) ∧
        st.2.length ≤ st1.2.length ∧ st1.2.length ≤ st.2.length + 2 := by
      rw [addElementVariables, idx_of (List.getElem?_eq_getElem ha), ok_bind]
      have hv := hT a _ (List.getElem?_eq_getElem ha)
      cases hel : elements[a] with
      | length i =>
        rw [hel] at hv
        have hi := hv i (by simp [EncodedElement.variableIndices])
        simp only [idx_of (List.getElem?_eq_getElem hi), ok_bind]
        refine ⟨_, rfl, fun p hp => ?_, by simp, by simp⟩
        rcases IMap.mem_insert hp with hp | rfl
        · have := hst p hp
          exact ⟨this.1, by simp; omega⟩
        · exact ⟨hi, by simp⟩
      | point i =>
        rw [hel] at hv
        have hi := hv i (by simp [EncodedElement.variableIndices])
        have hi' := hv (i + 1) (by simp [EncodedElement.variableIndices])
        simp only [idx_of (List.getElem?_eq_getElem hi), idx_of (List.getElem?_eq_getElem hi'), ok_bind]
        refine ⟨_, rfl, fun p hp => ?_, by simp, by simp⟩
        rcases IMap.mem_insert hp with hp | rfl
        · rcases IMap.mem_insert hp with hp | rfl
          · have := hst p hp
            exact ⟨this.1, by simp; omega⟩
          · exact ⟨hi, by simp⟩
        · exact ⟨hi', by simp⟩
      | line a b => exact ⟨st, rfl, hst, le_refl _, by omega⟩
      | circle a b => exact ⟨st, rfl, hst, le_refl _, by omega⟩
    obtain ⟨st2, h5, h6, h7, h8⟩ := ih st1 (fun e he => hl e (by simp [he])) h2
    refine ⟨st2, by rw [List.foldlM_cons, h1, ok_bind, h5], h6, h3.trans h7, ?_⟩
    simp only [List.length_cons]
    omega

end

/-- What is known about the result of `build`. -/
structure ClusteredSystem.Built (s : System F) (step : RecombinationStep) (n : Nat) (cs : ClusteredSystem) (values : List F) : Prop where
  values : values.length = cs.numVariables
  mapping : ∀ p ∈ cs.mapping, p.1 < n ∧ p.2 < cs.numVariables
  poses : 3 * cs.clusters.length ≤ cs.numVariables
  few : cs.numVariables ≤ 3 * cs.clusters.length + 2 * s.elements.length
  rows : cs.numPoseExpressions ≤ 2 * step.listing.length

/-- `build` returns for the steps of a plan. -/
theorem build_ok {s : System F} {T : List F} {step : RecombinationStep} (hT : VarsBelow s.elements T.length)
    (hcons : ∀ n ∈ step.constraints, ∃ l, s.constraintExpressions n = .ok l) (hel : ∀ e ∈ step.elements, e < s.elements.length) (hn : step.elements.Nodup)
    (hf : Fronted s.elements.length step.onFrontiers step.frontierElements) (hreal : ∀ p ∈ step.frontierElements, ∀ v ∈ p.2, v < s.elements.length) :
    ∃ cs values, ClusteredSystem.build s T step = .ok (cs, values) ∧ cs.Built s step T.length values := by
  obtain ⟨es, h1⟩ : ∃ r, step.constraints.mapM s.constraintExpressions = .ok r := mapM_ok_exists hcons
  obtain ⟨reach, h2, h3⟩ := initialClusters_ok hel hn
  obtain ⟨vars, h4, h5, h6⟩ := followClusters_ok hf hreal (step.listing.length + 1) 0 (reach, step.elements) h3 (Nat.zero_le _) (by omega)
  obtain ⟨⟨clusters, np⟩, h7, h8⟩ := collect_ok (elements := s.elements) (step := step) vars ([], 0) h6
  obtain ⟨⟨mapping, values⟩, h9, h10, h11, h12⟩ := addElements_ok hT vars (([] : IMap Nat Nat), List.replicate (clusters.length * 3) (0 : F)) h6 (by simp)
  refine ⟨⟨values.length, vars, clusters, es.flatten, np, mapping⟩, values, ?_, ?_⟩
  · rw [ClusteredSystem.build, h1, ok_bind, h2, ok_bind]
    erw [h4]
    rw [ok_bind, h7, ok_bind]
    simp only [h9, ok_bind]
    rfl
  · have := sum_listed_le step.onFrontiers vars h5
    have hv : vars.length ≤ s.elements.length := length_le_of_lt h5 h6
    simp only [List.length_replicate] at h11 h12
    refine ⟨rfl, h10, ?_, ?_, ?_⟩
    · show 3 * clusters.length ≤ values.length
      omega
    · show values.length ≤ 3 * clusters.length + 2 * s.elements.length
      omega
    · show np ≤ 2 * (step.onFrontiers.flatMap Prod.snd).length
      simp only at h8
      omega

/-- There are at most as many poses as clusters listed for elements. -/
theorem build_few {s : System F} {T : List F} {step : RecombinationStep} {cs : ClusteredSystem} {values : List F}
    (h : ClusteredSystem.build s T step = .ok (cs, values)) : cs.clusters.length ≤ step.listing.length := by
  have h1 := (build_counts h).2
  have h2 : cs.clusters.keys.length ≤ step.listing.length := by
    refine (h1.subperm fun c hc => ?_).length_le
    obtain ⟨e, -, -, h3⟩ := (build_posed h c).1 hc
    exact mem_listing h3
  simpa [IMap.keys] using h2

theorem build_expressions {s : System F} {T : List F} {step : RecombinationStep} {cs : ClusteredSystem} {values : List F}
    (h : ClusteredSystem.build s T step = .ok (cs, values)) : ∃ es, step.constraints.mapM s.constraintExpressions = .ok es ∧ cs.expressions = es.flatten := by
  simp only [ClusteredSystem.build, bind_eq_ok] at h
  obtain ⟨es, h0, reach, -, elements, -, ⟨clusters, np⟩, -, ⟨mapping, vs⟩, -, h⟩ := h
  cases h
  exact ⟨es, h0, rfl⟩

/-! ## Residuals and Jacobian -/

section
variable {s : System F} {T : List F} {step : RecombinationStep} {cs : ClusteredSystem} {exprs : List (Expr F)}

/-- All a clustered problem refers to exists. -/
structure ClusteredSystem.Sound (s : System F) (exprs : List (Expr F)) (T : List F) (cs : ClusteredSystem) : Prop where
  expr : ∀ id ∈ cs.expressions, ∃ e, exprs[id]? = some e ∧ ∀ v ∈ e.variableIndices, ∃ i, cs.mapping.get? v = some i ∧ i < cs.numVariables
  poses : 3 * cs.clusters.length ≤ cs.numVariables
  rows : cs.numPoseExpressions = 2 * countPoints cs.clusters
  points : ∀ q ∈ cs.clusters, ∀ p ∈ q.2, ∃ k u, s.elements[p]? = some (.point k) ∧ k + 1 < T.length ∧ cs.mapping.get? k = some u ∧ u + 1 < cs.numVariables

/-- The positions of the Jacobian that an expression occupies. -/
def ClusteredSystem.exprPattern (cs : ClusteredSystem) (exprs : List (Expr F)) (ik : Nat × Nat) : List (Nat × Nat) :=
  match exprs[ik.1]? with
  | none => []
  | some e => e.variableIndices.map (fun v => (cs.numPoseExpressions + ik.2, cs.slot v))

/-- The positions of the Jacobian that a point of cluster number `k` occupies, with the two rows from `row` on. -/
def ClusteredSystem.pointPattern (cs : ClusteredSystem) (elements : List EncodedElement) (k row point : Nat) : List (Nat × Nat) :=
  let u := match elements[point]? with
    | some (.point i) => cs.slot i
    | _ => 0
  [(row, 3 * k), (row, 3 * k + 1), (row, 3 * k + 2), (row + 1, 3 * k), (row + 1, 3 * k + 1), (row + 1, 3 * k + 2), (row, u), (row + 1, u + 1)]

theorem cs_pushRow_positions (cs : ClusteredSystem) (u : List F) (k : Nat) : ∀ (is : List Nat) (gs : List F), gs.length = is.length →
    positions (pushRow k ((is.map (fun v => Variable.free (u.getD (cs.slot v) 0) (cs.slot v))).zip gs)) = is.map (fun v => (k, cs.slot v)) := by
  intro is
  induction is with
  | nil => intro gs _; rfl
  | cons i is ih =>
    intro gs hg
    cases gs with
    | nil => cases hg
    | cons g gs =>
      have ih := ih gs (by simpa using hg)
      rw [List.map_cons, List.zip_cons_cons, List.map_cons]
      exact congrArg _ ih

theorem variables_ok {is : List Nat} {u : List F} (h : ∀ v ∈ is, ∃ i, cs.mapping.get? v = some i ∧ i < u.length) :
    is.mapM (cs.variable u) = .ok (is.map (fun v => Variable.free (u.getD (cs.slot v) 0) (cs.slot v))) := by
  induction is with
  | nil => rfl
  | cons v is ih =>
    obtain ⟨i, h1, h2⟩ := h v (by simp)
    have hs : cs.slot v = i := by rw [ClusteredSystem.slot, h1]; rfl
    have h3 : cs.variable u v = .ok (.free (u.getD i 0) i) := by
      rw [ClusteredSystem.variable, h1]
      simp only [unwrap, ok_bind, idx_getD h2]
      rfl
    rw [List.mapM_cons, h3, ok_bind, ih (fun v hv => h v (by simp [hv])), ok_bind, List.map_cons, hs]
    rfl

theorem exprPattern_length (cs : ClusteredSystem) (exprs : List (Expr F)) (ik : Nat × Nat) : (cs.exprPattern exprs ik).length ≤ 8 := by
  unfold ClusteredSystem.exprPattern
  split
  · simp
  · rename_i e _
    rw [List.length_map]
    cases e <;> simp [Expr.variableIndices]

theorem expr_pair (hs : cs.Sound s exprs T) {u : List F} (hu : u.length = cs.numVariables) {N : Nat} :
    ∀ (l : List Nat) (k : Nat) (ra rb : List F) (ts : List (Nat × Nat × F)), (∀ id ∈ l, id ∈ cs.expressions) → ra.length = N → rb.length = N →
      cs.numPoseExpressions + k + l.length ≤ N →
      ∃ ra' rb' ts', (l.zipIdx k).foldlM (cs.exprRow exprs u) (ra, ts) = .ok (ra', ts') ∧ (l.zipIdx k).foldlM (cs.exprResidual exprs u) rb = .ok rb' ∧
        ra'.length = N ∧ rb'.length = N ∧ positions ts' = positions ts ++ (l.zipIdx k).flatMap (cs.exprPattern exprs) ∧
        (∀ rc ∈ (l.zipIdx k).flatMap (cs.exprPattern exprs), rc.1 < N ∧ rc.2 < cs.numVariables) ∧
        ∀ i : Nat, (ra[i]? = rb[i]? ∨ (cs.numPoseExpressions + k ≤ i ∧ i < cs.numPoseExpressions + k + l.length)) → ra'[i]? = rb'[i]? := by
  intro l
  induction l with
  | nil =>
    intro k ra rb ts _ h1 h2 _
    refine ⟨ra, rb, ts, rfl, rfl, h1, h2, by simp, by simp, fun i hi => ?_⟩
    rcases hi with hi | hi
    · exact hi
    · simp only [List.length_nil] at hi; omega
  | cons id l ih =>
    intro k ra rb ts hl h1 h2 h3
    rw [List.length_cons] at h3
    obtain ⟨e, he, hv⟩ := hs.expr id (hl id (by simp))
    have hvars := variables_ok (cs := cs) (is := e.variableIndices) (u := u) (by rw [hu]; exact hv)
    obtain ⟨rg, hrg⟩ := compute_total e (fun v => u.getD (cs.slot v) 0)
    have hm : (e.variableIndices.map (fun v => Variable.free (u.getD (cs.slot v) 0) (cs.slot v))).map Variable.value =
        e.variableIndices.map (fun v => u.getD (cs.slot v) 0) := by
      rw [List.map_map]
      exact List.map_congr_left fun v _ => rfl
    have hlen : cs.numPoseExpressions + k < N := by omega
    obtain ⟨ra', rb', ts', g1, g2, g3, g4, g5, g6, g7⟩ := ih (k + 1) (ra.set (cs.numPoseExpressions + k) rg.1) (rb.set (cs.numPoseExpressions + k) rg.1)
      (ts ++ pushRow (cs.numPoseExpressions + k) ((e.variableIndices.map (fun v => Variable.free (u.getD (cs.slot v) 0) (cs.slot v))).zip rg.2))
      (fun i hi => hl i (by simp [hi])) (by simpa using h1) (by simpa using h2) (by omega)
    have hpat : cs.exprPattern exprs (id, k) = e.variableIndices.map (fun v => (cs.numPoseExpressions + k, cs.slot v)) := by
      rw [ClusteredSystem.exprPattern, he]
    refine ⟨ra', rb', ts', ?_, ?_, g3, g4, ?_, ?_, fun i hi => g7 i ?_⟩
    · have hstep : cs.exprRow exprs u (ra, ts) (id, k) = .ok (ra.set (cs.numPoseExpressions + k) rg.1,
          ts ++ pushRow (cs.numPoseExpressions + k) ((e.variableIndices.map (fun v => Variable.free (u.getD (cs.slot v) 0) (cs.slot v))).zip rg.2)) := by
        rw [ClusteredSystem.exprRow, idx_of he, ok_bind, hvars, ok_bind, hm, hrg, ok_bind]
        simp only [setIdx_of rg.1 (show cs.numPoseExpressions + k < ra.length by omega), ok_bind]
        rfl
      rw [List.zipIdx_cons, List.foldlM_cons, hstep, ok_bind, g1]
    · rw [List.zipIdx_cons, List.foldlM_cons, ClusteredSystem.exprResidual, idx_of he, ok_bind, hvars, ok_bind, hm, hrg, ok_bind,
        setIdx_of rg.1 (show cs.numPoseExpressions + k < rb.length by omega), ok_bind, g2]
    · rw [g5, List.zipIdx_cons, List.flatMap_cons, ← List.append_assoc]
      congr 1
      have := cs_pushRow_positions cs u (cs.numPoseExpressions + k) e.variableIndices rg.2 (compute_length hrg)
      rw [positions] at this ⊢
      rw [List.map_append, this, hpat]
      rfl
    · intro rc hrc
      rw [List.zipIdx_cons, List.flatMap_cons] at hrc
      rcases List.mem_append.1 hrc with hrc | hrc
      · rw [hpat, List.mem_map] at hrc
        obtain ⟨v, hv1, rfl⟩ := hrc
        obtain ⟨i, h5, h6⟩ := hv v hv1
        refine ⟨hlen, ?_⟩
        show cs.slot v < _
        rw [ClusteredSystem.slot, h5]
        exact h6
      · exact g6 rc hrc
    · by_cases hk : i = cs.numPoseExpressions + k
      · left
        subst hk
        rw [List.getElem?_set_self (by omega), List.getElem?_set_self (by omega)]
      · rcases hi with hi | hi
        · left
          rw [List.getElem?_set_ne (Ne.symm hk), List.getElem?_set_ne (Ne.symm hk)]
          exact hi
        · right
          rw [List.length_cons] at hi
          omega

/-- The positions of the points of cluster number `k`. -/
def ClusteredSystem.pointsPattern (cs : ClusteredSystem) (elements : List EncodedElement) (k : Nat) : Nat → List Nat → List (Nat × Nat)
  | _, [] => []
  | row, p :: l => cs.pointPattern elements k row p ++ cs.pointsPattern elements k (row + 2) l

/-- The positions of the clusters from number `k` on. -/
def ClusteredSystem.clustersPattern (cs : ClusteredSystem) (elements : List EncodedElement) : Nat → Nat → List (Nat × List Nat) → List (Nat × Nat)
  | _, _, [] => []
  | k, row, q :: l => cs.pointsPattern elements k row q.2 ++ cs.clustersPattern elements (k + 1) (row + 2 * q.2.length) l

theorem pointsPattern_length (cs : ClusteredSystem) (elements : List EncodedElement) (k : Nat) : ∀ (l : List Nat) (row : Nat),
    (cs.pointsPattern elements k row l).length = 8 * l.length := by
  intro l
  induction l with
  | nil => intro row; rfl
  | cons p l ih => intro row; simp only [ClusteredSystem.pointsPattern, List.length_append, ih, List.length_cons, ClusteredSystem.pointPattern, List.length_nil]; omega

theorem clustersPattern_length (cs : ClusteredSystem) (elements : List EncodedElement) : ∀ (l : List (Nat × List Nat)) (k row : Nat),
    (cs.clustersPattern elements k row l).length = 8 * countPoints l := by
  intro l
  induction l with
  | nil => intro k row; rfl
  | cons q l ih =>
    intro k row
    simp only [ClusteredSystem.clustersPattern, List.length_append, ih, pointsPattern_length, countPoints, List.map_cons, List.sum_cons]
    omega

theorem point_pair (hs : cs.Sound s exprs T) {u : List F} (hu : u.length = cs.numVariables) {N k : Nat} (hk : 3 * k + 2 < cs.numVariables) :
    ∀ (l : List Nat) (row : Nat) (ra rb : List F) (ts : List (Nat × Nat × F)), (∀ p ∈ l, ∃ q ∈ cs.clusters, p ∈ q.2) → ra.length = N → rb.length = N →
      row + 2 * l.length ≤ N →
      ∃ ra' rb' ts', l.foldlM (cs.pointRows s.elements T u k (poseOf u k)) (row, ra, ts) = .ok (row + 2 * l.length, ra', ts') ∧
        l.foldlM (cs.pointResidual s.elements T u (poseOf u k)) (row, rb) = .ok (row + 2 * l.length, rb') ∧
        ra'.length = N ∧ rb'.length = N ∧ positions ts' = positions ts ++ cs.pointsPattern s.elements k row l ∧
        (∀ rc ∈ cs.pointsPattern s.elements k row l, rc.1 < N ∧ rc.2 < cs.numVariables) ∧
        ∀ i : Nat, (ra[i]? = rb[i]? ∨ (row ≤ i ∧ i < row + 2 * l.length)) → ra'[i]? = rb'[i]? := by
  intro l
  induction l with
  | nil =>
    intro row ra rb ts _ h1 h2 _
    refine ⟨ra, rb, ts, rfl, rfl, h1, h2, by simp [ClusteredSystem.pointsPattern], by simp [ClusteredSystem.pointsPattern], fun i hi => ?_⟩
    rcases hi with hi | hi
    · exact hi
    · simp only [List.length_nil] at hi; omega
  | cons p l ih =>
    intro row ra rb ts hl h1 h2 h3
    rw [List.length_cons] at h3
    obtain ⟨q, hq, hpq⟩ := hl p (by simp)
    obtain ⟨i, w, he, hi, hw, hwn⟩ := hs.points q hq p hpq
    have hterm : cs.pointTerm s.elements T u p = .ok ((T.getD i 0, T.getD (i + 1) 0), w, (u.getD w 0, u.getD (w + 1) 0)) := by
      rw [ClusteredSystem.pointTerm, idx_of he, ok_bind]
      simp only [idx_getD (show i < T.length by omega), idx_getD hi, hw, unwrap, idx_getD (show w < u.length by omega), idx_getD (show w + 1 < u.length by omega), ok_bind]
      rfl
    have hpat : cs.pointPattern s.elements k row p = [(row, 3 * k), (row, 3 * k + 1), (row, 3 * k + 2), (row + 1, 3 * k), (row + 1, 3 * k + 1), (row + 1, 3 * k + 2), (row, w), (row + 1, w + 1)] := by
      rw [ClusteredSystem.pointPattern, he]
      simp [ClusteredSystem.slot, hw]
    generalize hx : ((poseOf u k).transformPoint (T.getD i 0) (T.getD (i + 1) 0)).1 - u.getD w 0 = x
    generalize hy : ((poseOf u k).transformPoint (T.getD i 0) (T.getD (i + 1) 0)).2 - u.getD (w + 1) 0 = y
    generalize hgx : (poseOf u k).gradientChainRulePoint (T.getD i 0) (T.getD (i + 1) 0) 1 0 = gx
    generalize hgy : (poseOf u k).gradientChainRulePoint (T.getD i 0) (T.getD (i + 1) 0) 0 1 = gy
    obtain ⟨ra', rb', ts', g1, g2, g3, g4, g5, g6, g7⟩ := ih (row + 2) ((ra.set row x).set (row + 1) y) ((rb.set row x).set (row + 1) y)
      (ts ++ [(row, 3 * k, gx.1), (row, 3 * k + 1, gx.2.1), (row, 3 * k + 2, gx.2.2),
     (row + 1, 3 * k, gy.1), (row + 1, 3 * k + 1, gy.2.1), (row + 1, 3 * k + 2, gy.2.2), (row, w, -1), (row + 1, w + 1, -1)])
      (fun p hp => hl p (by simp [hp])) (by simpa using h1) (by simpa using h2) (by omega)
    refine ⟨ra', rb', ts', ?_, ?_, g3, g4, ?_, ?_, fun j hj => g7 j ?_⟩
    · have hstep : cs.pointRows s.elements T u k (poseOf u k) (row, ra, ts) p = .ok (row + 2, (ra.set row x).set (row + 1) y, ts ++ [(row, 3 * k, gx.1), (row, 3 * k + 1, gx.2.1), (row, 3 * k + 2, gx.2.2),
     (row + 1, 3 * k, gy.1), (row + 1, 3 * k + 1, gy.2.1), (row + 1, 3 * k + 2, gy.2.2), (row, w, -1), (row + 1, w + 1, -1)]) := by
        rw [ClusteredSystem.pointRows, hterm, ok_bind]
        simp only [hx, hy, hgx, hgy]
        rw [setIdx_of x (show row < ra.length by omega), ok_bind, setIdx_of y (show row + 1 < (ra.set row x).length by rw [List.length_set]; omega), ok_bind]
        rfl
      rw [List.foldlM_cons, hstep, ok_bind, g1, List.length_cons]
      congr 2
      omega
    · have hstep : cs.pointResidual s.elements T u (poseOf u k) (row, rb) p = .ok (row + 2, (rb.set row x).set (row + 1) y) := by
        rw [ClusteredSystem.pointResidual, hterm, ok_bind]
        simp only [hx, hy]
        rw [setIdx_of x (show row < rb.length by omega), ok_bind, setIdx_of y (show row + 1 < (rb.set row x).length by rw [List.length_set]; omega), ok_bind]
        rfl
      rw [List.foldlM_cons, hstep, ok_bind, g2, List.length_cons]
      congr 2
      omega
    · rw [g5, ClusteredSystem.pointsPattern, ← List.append_assoc]
      congr 1
      rw [positions, List.map_append, hpat]
      rfl
    · intro rc hrc
      rw [ClusteredSystem.pointsPattern] at hrc
      rcases List.mem_append.1 hrc with hrc | hrc
      · rw [hpat] at hrc
        simp only [List.mem_cons, List.not_mem_nil, or_false] at hrc
        rcases hrc with rfl | rfl | rfl | rfl | rfl | rfl | rfl | rfl <;> exact ⟨by show _ < N; omega, by show _ < cs.numVariables; omega⟩
      · exact g6 rc hrc
    · by_cases h5 : j = row
      · left
        subst h5
        have hne : j + 1 ≠ j := by omega
        rw [List.getElem?_set_ne hne, List.getElem?_set_self (by omega), List.getElem?_set_ne hne, List.getElem?_set_self (by omega)]
      · by_cases h6 : j = row + 1
        · left
          subst h6
          rw [List.getElem?_set_self (by rw [List.length_set]; omega), List.getElem?_set_self (by rw [List.length_set]; omega)]
        · rcases hj with hj | hj
          · left
            rw [List.getElem?_set_ne (by omega), List.getElem?_set_ne (by omega), List.getElem?_set_ne (by omega), List.getElem?_set_ne (by omega)]
            exact hj
          · right
            rw [List.length_cons] at hj
            omega

theorem poseAt_ok {u : List F} {k : Nat} (h : 3 * k + 2 < u.length) : poseAt u k = .ok (poseOf u k) := by
  rw [poseAt, idx_getD (show 3 * k < u.length by omega), ok_bind, idx_getD (show 3 * k + 1 < u.length by omega), ok_bind, idx_getD h, ok_bind]
  rfl

theorem cluster_pair (hs : cs.Sound s exprs T) {u : List F} (hu : u.length = cs.numVariables) {N : Nat} :
    ∀ (l : List (Nat × List Nat)) (k row : Nat) (ra rb : List F) (ts : List (Nat × Nat × F)), (∀ q ∈ l, q ∈ cs.clusters) → 3 * (k + l.length) ≤ cs.numVariables →
      ra.length = N → rb.length = N → row + 2 * countPoints l ≤ N →
      ∃ ra' rb' ts', (l.zipIdx k).foldlM (fun (st : Nat × List F × List (Nat × Nat × F)) (ck : (Nat × List Nat) × Nat) => do
          let pose ← poseAt u ck.2
          ck.1.2.foldlM (cs.pointRows s.elements T u ck.2 pose) st) (row, ra, ts) = .ok (row + 2 * countPoints l, ra', ts') ∧
        (l.zipIdx k).foldlM (fun (st : Nat × List F) (ck : (Nat × List Nat) × Nat) => do
          let pose ← poseAt u ck.2
          ck.1.2.foldlM (cs.pointResidual s.elements T u pose) st) (row, rb) = .ok (row + 2 * countPoints l, rb') ∧
        ra'.length = N ∧ rb'.length = N ∧ positions ts' = positions ts ++ cs.clustersPattern s.elements k row l ∧
        (∀ rc ∈ cs.clustersPattern s.elements k row l, rc.1 < N ∧ rc.2 < cs.numVariables) ∧
        ∀ i : Nat, (ra[i]? = rb[i]? ∨ (row ≤ i ∧ i < row + 2 * countPoints l)) → ra'[i]? = rb'[i]? := by
  intro l
  induction l with
  | nil =>
    intro k row ra rb ts _ _ h1 h2 _
    refine ⟨ra, rb, ts, rfl, rfl, h1, h2, by simp [ClusteredSystem.clustersPattern], by simp [ClusteredSystem.clustersPattern], fun i hi => ?_⟩
    rcases hi with hi | hi
    · exact hi
    · simp only [countPoints, List.map_nil, List.sum_nil] at hi; omega
  | cons q l ih =>
    intro k row ra rb ts hl hk h1 h2 h3
    rw [List.length_cons] at hk
    have hcp : countPoints (q :: l) = q.2.length + countPoints l := by simp [countPoints]
    rw [hcp] at h3 ⊢
    have hpose := poseAt_ok (u := u) (k := k) (by omega)
    obtain ⟨ra1, rb1, ts1, f1, f2, f3, f4, f5, f6, f7⟩ := point_pair hs hu (N := N) (k := k) (by omega) q.2 row ra rb ts
      (fun p hp => ⟨q, hl q (by simp), hp⟩) h1 h2 (by omega)
    obtain ⟨ra', rb', ts', g1, g2, g3, g4, g5, g6, g7⟩ := ih (k + 1) (row + 2 * q.2.length) ra1 rb1 ts1 (fun q hq => hl q (by simp [hq])) (by omega) f3 f4 (by omega)
    refine ⟨ra', rb', ts', ?_, ?_, g3, g4, ?_, ?_, fun i hi => g7 i ?_⟩
    · rw [List.zipIdx_cons, List.foldlM_cons]
      simp only [hpose, ok_bind, f1, g1]
      congr 2
      omega
    · rw [List.zipIdx_cons, List.foldlM_cons]
      simp only [hpose, ok_bind, f2, g2]
      congr 2
      omega
    · rw [g5, f5, ClusteredSystem.clustersPattern, List.append_assoc]
    · intro rc hrc
      rw [ClusteredSystem.clustersPattern] at hrc
      rcases List.mem_append.1 hrc with hrc | hrc
      · exact f6 rc hrc
      · exact g6 rc hrc
    · by_cases h5 : row ≤ i ∧ i < row + 2 * q.2.length
      · exact .inl (f7 i (.inr h5))
      · rcases hi with hi | hi
        · exact .inl (f7 i (.inl hi))
        · exact .inr (by omega)

/-- The positions of the Jacobian of a clustered problem; they do not depend on the values. -/
def ClusteredSystem.pattern (cs : ClusteredSystem) (s : System F) (exprs : List (Expr F)) : List (Nat × Nat) :=
  cs.expressions.zipIdx.flatMap (cs.exprPattern exprs) ++ cs.clustersPattern s.elements 0 0 cs.clusters

theorem ClusteredSystem.pattern_length (cs : ClusteredSystem) (s : System F) (exprs : List (Expr F)) (hs : cs.Sound s exprs T) :
    (cs.pattern s exprs).length ≤ 8 * (cs.expressions.length + cs.numPoseExpressions) := by
  have h : ∀ l : List (Nat × Nat), (l.flatMap (cs.exprPattern exprs)).length ≤ 8 * l.length := by
    intro l
    induction l with
    | nil => simp
    | cons ik l ih =>
      rw [List.flatMap_cons, List.length_append, List.length_cons]
      have := exprPattern_length cs exprs ik
      omega
  have h1 := h cs.expressions.zipIdx
  rw [List.length_zipIdx] at h1
  rw [ClusteredSystem.pattern, List.length_append, clustersPattern_length]
  have := hs.rows
  omega

theorem residualsAndTriplets_eq (cs : ClusteredSystem) (s : System F) (exprs : List (Expr F)) (T values residuals : List F) (ts : List (Nat × Nat × F)) :
    cs.residualsAndTriplets s exprs T values residuals ts = (do
      let (residuals, triplets) ← cs.expressions.zipIdx.foldlM (cs.exprRow exprs values) (residuals, ts)
      let (_, residuals, triplets) ← cs.clusters.zipIdx.foldlM
        (fun (st : Nat × List F × List (Nat × Nat × F)) (ck : (Nat × List Nat) × Nat) => do
          let pose ← poseAt values ck.2
          ck.1.2.foldlM (cs.pointRows s.elements T values ck.2 pose) st) (0, residuals, triplets)
      pure (residuals, triplets)) := rfl

/-- The problems of recursive assembly are total. -/
theorem ClusteredSystem.Sound.total (hs : cs.Sound s exprs T) : (cs.problem s exprs T).Total (cs.pattern s exprs) := by
  have key : ∀ x rs : List F, x.length = cs.numVariables → rs.length = cs.expressions.length + cs.numPoseExpressions →
      ∃ r ts, cs.residualsAndTriplets s exprs T x rs [] = .ok (r, ts) ∧ cs.calculateResiduals s exprs T x = .ok r ∧
        r.length = cs.expressions.length + cs.numPoseExpressions ∧ positions ts = cs.pattern s exprs ∧
        ∀ t ∈ ts, t.1 < cs.expressions.length + cs.numPoseExpressions ∧ t.2.1 < cs.numVariables := by
    intro x rs hx hrs
    obtain ⟨ra, rb, ts, f1, f2, f3, f4, f5, f6, f7⟩ := expr_pair hs hx cs.expressions 0 rs (List.replicate (cs.expressions.length + cs.numPoseExpressions) 0) [] (fun _ h => h) hrs (by simp) (by omega)
    obtain ⟨ra', rb', ts', g1, g2, g3, g4, g5, g6, g7⟩ := cluster_pair hs hx cs.clusters 0 0 ra rb ts (fun _ h => h) (by have := hs.poses; omega) f3 f4
      (by rw [← hs.rows] at *; omega)
    have heq : ra' = rb' := by
      apply List.ext_getElem?
      intro i
      by_cases hi : i < cs.numPoseExpressions
      · exact g7 i (.inr ⟨Nat.zero_le _, by rw [← hs.rows]; omega⟩)
      · by_cases hi' : i < cs.expressions.length + cs.numPoseExpressions
        · exact g7 i (.inl (f7 i (.inr ⟨by omega, by omega⟩)))
        · rw [List.getElem?_eq_none (by omega), List.getElem?_eq_none (by omega)]
    have hpos : positions ts' = cs.pattern s exprs := by
      rw [g5, f5, ClusteredSystem.pattern]
      simp [positions]
    refine ⟨ra', ts', ?_, ?_, g3, hpos, fun t ht => ?_⟩
    · rw [residualsAndTriplets_eq, f1, ok_bind]
      simp only [g1, ok_bind]
      rfl
    · rw [calculateResiduals_eq, f2, ok_bind]
      simp only [g2, ok_bind]
      rw [heq]
      rfl
    · have h1 : (t.1, t.2.1) ∈ cs.pattern s exprs := by
        rw [← hpos]
        exact List.mem_map.2 ⟨t, ht, rfl⟩
      rw [ClusteredSystem.pattern] at h1
      rcases List.mem_append.1 h1 with h1 | h1
      · exact f6 _ h1
      · exact g6 _ h1
  refine ⟨fun x hx => ?_, fun x rs hx hrs => ?_⟩
  · obtain ⟨r, ts, -, h2, h3, -⟩ := key x (List.replicate (cs.expressions.length + cs.numPoseExpressions) 0) hx (by simp)
    exact ⟨r, h2, h3⟩
  · obtain ⟨r, ts, h1, h2, h3, h4, h5⟩ := key x rs hx hrs
    exact ⟨r, ts, h1, h2, h4, h5⟩

end

end Fiksi
