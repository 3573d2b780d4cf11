import Verif.Props.Jacobian
import Verif.Props.Lm
import Verif.Props.Rest
/-!
# Jacobians of the problems of `RecursiveAssembly` (C63)
-/
namespace Fiksi

set_option linter.unusedSectionVars false
variable {F : Type} [Add F] [Sub F] [Mul F] [Div F] [Neg F] [Zero F] [One F] [FloatOps F]

open Spec (entrySum Op Store)

/-! ## Rows written so far -/

/-- The residuals as functions of variable number `c`, and triplets: for the rows `done` the triplets hold the derivative, for the
others they hold nothing. -/
structure Tracks (c : Nat) (t : ℝ) (done : Nat → Prop) (R : ℝ → List ℝ) (cur : List ℝ) (ts : List (Nat × Nat × ℝ)) : Prop where
  deriv : ∀ row, done row → ∃ f : ℝ → ℝ, (∀ s, (R s)[row]? = some (f s)) ∧ cur[row]? = some (f t) ∧ HasDerivAt f (entrySum ts row c) t
  rest : ∀ row, ¬ done row → entrySum ts row c = 0

theorem Tracks.write {c : Nat} {t : ℝ} {done : Nat → Prop} {R : ℝ → List ℝ} {cur : List ℝ} {ts : List (Nat × Nat × ℝ)} (h : Tracks c t done R cur ts)
    {r : Nat} (hr : ¬ done r) (hc : r < cur.length) (hR : ∀ s, r < (R s).length) {ρ : ℝ → ℝ} {new : List (Nat × Nat × ℝ)}
    (h0 : ∀ p ∈ new, p.1 = r) (hd : HasDerivAt ρ (entrySum new r c) t) :
    Tracks c t (fun row => done row ∨ row = r) (fun s => (R s).set r (ρ s)) (cur.set r (ρ t)) (ts ++ new) := by
  have hne : ∀ row, row ≠ r → entrySum new row c = 0 := fun row hrow => entrySum_eq_zero fun p hp h1 => hrow (h1.symm.trans (h0 p hp))
  refine ⟨fun row hrow => ?_, fun row hrow => ?_⟩
  · by_cases he : row = r
    · subst he
      refine ⟨ρ, fun s => by rw [List.getElem?_set_self (hR s)], by rw [List.getElem?_set_self hc], ?_⟩
      rw [entrySum_append, h.rest _ hr, zero_add]
      exact hd
    · obtain ⟨f, h1, h3, h2⟩ := h.deriv row (hrow.resolve_right he)
      refine ⟨f, fun s => by rw [List.getElem?_set_ne (Ne.symm he), h1], by rw [List.getElem?_set_ne (Ne.symm he), h3], ?_⟩
      rw [entrySum_append, hne row he, add_zero]
      exact h2
  · rw [entrySum_append, h.rest row (fun hc => hrow (.inl hc)), hne row (fun hc => hrow (.inr hc)), add_zero]

theorem Tracks.congr {c : Nat} {t : ℝ} {done done' : Nat → Prop} {R : ℝ → List ℝ} {cur : List ℝ} {ts ts' : List (Nat × Nat × ℝ)} (h : Tracks c t done R cur ts)
    (hd : ∀ row, done row ↔ done' row) (ht : ∀ row, entrySum ts row c = entrySum ts' row c) : Tracks c t done' R cur ts' :=
  ⟨fun row hrow => by rw [← ht]; exact h.deriv row ((hd row).2 hrow), fun row hrow => by rw [← ht]; exact h.rest row (fun hc => hrow ((hd row).1 hc))⟩

/-! ## Expressions -/

section
variable {cs : ClusteredSystem} {u : List ℝ} {c : Nat}

/-- The place of a variable among the values. -/
def ClusteredSystem.slot (cs : ClusteredSystem) (v : Nat) : Nat := (cs.mapping.get? v).getD 0

theorem set_getD_deriv (u : List ℝ) {c : Nat} (hc : c < u.length) (i : Nat) :
    HasDerivAt (fun s => (u.set c s).getD i 0) (if i = c then 1 else 0) (u.getD c 0) := by
  by_cases h : i = c
  · subst h
    simp only [List.getD_eq_getElem?_getD, List.getElem?_set_self hc, if_true]
    exact hasDerivAt_id _
  · simp only [List.getD_eq_getElem?_getD, List.getElem?_set_ne (Ne.symm h), h, if_false]
    exact hasDerivAt_const _ _

theorem set_getD_self (u : List ℝ) (c : Nat) : u.set c (u.getD c 0) = u := by
  apply List.ext_getElem?
  intro i
  by_cases hi : c = i
  · subst hi
    by_cases hc : c < u.length
    · rw [List.getElem?_set_self hc, List.getD_eq_getElem?_getD, List.getElem?_eq_getElem hc]
      rfl
    · rw [List.set_eq_of_length_le (by omega)]
  · rw [List.getElem?_set_ne hi]

theorem idx_set {i : Nat} {x : ℝ} (h : idx u i = .ok x) (s : ℝ) : idx (u.set c s) i = .ok ((u.set c s).getD i 0) := by
  rw [idx_eq_ok] at h
  have hi : i < (u.set c s).length := by rw [List.length_set]; exact (List.getElem?_eq_some_iff.1 h).1
  exact idx_getD hi

theorem variable_set {v : Nat} {x : Variable ℝ} (h : cs.variable u v = .ok x) (s : ℝ) :
    cs.variable (u.set c s) v = .ok (.free ((u.set c s).getD (cs.slot v) 0) (cs.slot v)) := by
  simp only [ClusteredSystem.variable, bind_eq_ok, unwrap_eq_ok] at h
  obtain ⟨i, h1, y, h2, -⟩ := h
  have hs : cs.slot v = i := by rw [ClusteredSystem.slot, h1]; rfl
  rw [ClusteredSystem.variable, h1, hs]
  change (do let x ← idx (u.set c s) i; pure (Variable.free x i)) = _
  rw [idx_set h2 s]
  rfl

theorem dot_slots_cluster (cs : ClusteredSystem) (w : List ℝ) (c : Nat) : ∀ (is : List Nat) (gs : List ℝ),
    dotList gs (is.map (fun v => if cs.slot v = c then 1 else 0)) =
      (slotVals c ((is.map (fun v => Variable.free (w.getD (cs.slot v) 0) (cs.slot v))).zip gs)).sum := by
  intro is
  induction is with
  | nil => intro gs; simp [dotList, slotVals]
  | cons i is ih =>
    intro gs
    cases gs with
    | nil => simp [dotList, slotVals]
    | cons g gs =>
      have ih := ih gs
      rw [dotList] at ih ⊢
      rw [List.map_cons, List.map_cons, List.zip_cons_cons, List.zipWith_cons_cons, List.sum_cons, ih]
      by_cases hc : cs.slot i = c
      · simp [slotVals, hc]
      · simp [slotVals, hc]

/-- One iteration of the loop over the expressions: residuals only. -/
noncomputable def ClusteredSystem.exprResidual (cs : ClusteredSystem) (exprs : List (Expr F)) (values : List F) (residuals : List F) (ei : Nat × Nat) : R (List F) := do
  let e ← idx exprs ei.1
  let vars ← e.variableIndices.mapM (cs.variable values)
  let rg ← e.computeResidualAndGradient (vars.map Variable.value)
  setIdx residuals (cs.numPoseExpressions + ei.2) rg.1

/-- One iteration of the loop over the expressions: residuals and triplets. -/
noncomputable def ClusteredSystem.exprRow (cs : ClusteredSystem) (exprs : List (Expr F)) (values : List F) (st : List F × List (Nat × Nat × F)) (ei : Nat × Nat) :
    R (List F × List (Nat × Nat × F)) := do
  let e ← idx exprs ei.1
  let vars ← e.variableIndices.mapM (cs.variable values)
  let rg ← e.computeResidualAndGradient (vars.map Variable.value)
  let residuals ← setIdx st.1 (cs.numPoseExpressions + ei.2) rg.1
  pure (residuals, st.2 ++ pushRow (cs.numPoseExpressions + ei.2) (vars.zip rg.2))

/-- The expressions are smooth at the values. -/
def ClusteredSystem.SmoothOn (cs : ClusteredSystem) (exprs : List (Expr ℝ)) (u : List ℝ) : Prop :=
  ∀ id ∈ cs.expressions, ∀ e, exprs[id]? = some e → ∀ vars, e.variableIndices.mapM (cs.variable u) = .ok vars →
    SmoothAt e (vars.map Variable.value)

theorem exprRow_tracks (hc : c < u.length) {exprs : List (Expr ℝ)} {id k : Nat}
    (hs : ∀ e, exprs[id]? = some e → ∀ vars, e.variableIndices.mapM (cs.variable u) = .ok vars → SmoothAt e (vars.map Variable.value))
    {st st' : List ℝ × List (Nat × Nat × ℝ)}
    (h : cs.exprRow exprs u st (id, k) = .ok st') {done : Nat → Prop} {R : ℝ → List ℝ} (ht : Tracks c (u.getD c 0) done R st.1 st.2)
    (hl : ∀ s, (R s).length = st.1.length) (hk : ¬ done (cs.numPoseExpressions + k)) :
    ∃ R' : ℝ → List ℝ, (∀ s, cs.exprResidual exprs (u.set c s) (R s) (id, k) = .ok (R' s)) ∧ st'.1.length = st.1.length ∧
      (∀ s, (R' s).length = st'.1.length) ∧ Tracks c (u.getD c 0) (fun row => done row ∨ row = cs.numPoseExpressions + k) R' st'.1 st'.2 := by
  simp only [ClusteredSystem.exprRow, bind_eq_ok, idx_eq_ok, setIdx_eq_ok] at h
  obtain ⟨e, h1, vars, h2, rg, h3, rs, ⟨h4, h5⟩, h6⟩ := h
  cases h6
  have hm : ∀ s, e.variableIndices.mapM (cs.variable (u.set c s)) =
      .ok (e.variableIndices.map (fun v => Variable.free ((u.set c s).getD (cs.slot v) 0) (cs.slot v))) := fun s =>
    mapM_ok_of _ _ _ fun v hv => by
      obtain ⟨x, -, hx⟩ := forall₂_mem (mapM_forall h2) hv
      exact variable_set hx s
  have hv0 : vars = e.variableIndices.map (fun v => Variable.free (u.getD (cs.slot v) 0) (cs.slot v)) := by
    have := hm (u.getD c 0)
    rw [set_getD_self, h2, Except.ok.injEq] at this
    exact this
  have hval : ∀ s, (e.variableIndices.map (fun v => Variable.free ((u.set c s).getD (cs.slot v) 0) (cs.slot v))).map Variable.value =
      e.variableIndices.map (fun v => (u.set c s).getD (cs.slot v) 0) := fun s => by
    rw [List.map_map]; rfl
  have hval0 : vars.map Variable.value = e.variableIndices.map (fun v => (u.set c (u.getD c 0)).getD (cs.slot v) 0) := by
    rw [set_getD_self, hv0, List.map_map]; rfl
  obtain ⟨f, g, d1, d2, d3, d4⟩ := C13_gradient_is_derivative e (fun v s => (u.set c s).getD (cs.slot v) 0)
    (fun v => if cs.slot v = c then 1 else 0) (u.getD c 0) (fun v _ => set_getD_deriv u hc _) (by
      have := hs e h1 vars h2
      rw [hval0] at this
      exact this)
  have hg : rg = (f (u.getD c 0), g) := by
    rw [hval0] at h3
    exact Except.ok.inj (h3.symm.trans d2)
  subst hg
  have hcomp : ∀ s, ∃ g', e.computeResidualAndGradient (e.variableIndices.map (fun v => (u.set c s).getD (cs.slot v) 0)) = .ok (f s, g') := fun s => by
    obtain ⟨rg', q⟩ := compute_total e (fun v => (u.set c s).getD (cs.slot v) 0)
    have h7 := d1 s
    have hmm : e.variableIndices.mapM (fun i => do
        let v ← (fun v => (.ok (.fixed ((u.set c s).getD (cs.slot v) 0)) : Except Panic (Variable ℝ))) i
        pure v.value) = .ok (e.variableIndices.map (fun v => (u.set c s).getD (cs.slot v) 0)) := mapM_ok_of _ _ _ (fun v hvm => rfl)
    rw [Expr.calculateResidual, hmm, ok_bind, q, ok_bind] at h7
    have h8 : rg'.1 = f s := Except.ok.inj h7
    exact ⟨rg'.2, by rw [q, ← h8]⟩
  refine ⟨fun s => (R s).set (cs.numPoseExpressions + k) (f s), fun s => ?_, ?_, fun s => ?_, ?_⟩
  · obtain ⟨g', q⟩ := hcomp s
    rw [ClusteredSystem.exprResidual, idx_of h1, ok_bind, hm s, ok_bind, hval s, q, ok_bind, setIdx_eq_ok]
    exact ⟨by rw [hl]; exact h4, rfl⟩
  · rw [← h5, List.length_set]
  · rw [List.length_set, hl, ← h5, List.length_set]
  · rw [← h5]
    refine ht.write hk h4 (fun s => by rw [hl]; exact h4) (fun p hp => pushRow_row hp) ?_
    rw [entrySum_pushRow, hv0, ← dot_slots_cluster cs u c]
    exact d4

theorem exprs_tracks (hc : c < u.length) {exprs : List (Expr ℝ)} : ∀ (l : List Nat) (k : Nat) {st st' : List ℝ × List (Nat × Nat × ℝ)} {done : Nat → Prop} {R : ℝ → List ℝ},
    (∀ id ∈ l, ∀ e, exprs[id]? = some e → ∀ vars, e.variableIndices.mapM (cs.variable u) = .ok vars → SmoothAt e (vars.map Variable.value)) →
    (l.zipIdx k).foldlM (cs.exprRow exprs u) st = .ok st' → Tracks c (u.getD c 0) done R st.1 st.2 → (∀ s, (R s).length = st.1.length) →
    (∀ row, cs.numPoseExpressions + k ≤ row → ¬ done row) →
    ∃ R' : ℝ → List ℝ, (∀ s, (l.zipIdx k).foldlM (cs.exprResidual exprs (u.set c s)) (R s) = .ok (R' s)) ∧ st'.1.length = st.1.length ∧
      (∀ s, (R' s).length = st'.1.length) ∧
      Tracks c (u.getD c 0) (fun row => done row ∨ (cs.numPoseExpressions + k ≤ row ∧ row < cs.numPoseExpressions + k + l.length)) R' st'.1 st'.2 := by
  intro l
  induction l with
  | nil =>
    intro k st st' done R _ h ht hl hd
    cases h
    exact ⟨R, fun s => rfl, rfl, hl, ht.congr (fun row => by simp) fun _ => rfl⟩
  | cons id l ih =>
    intro k st st' done R hs h ht hl hd
    rw [List.zipIdx_cons, List.foldlM_cons, bind_eq_ok] at h
    obtain ⟨st1, h1, h2⟩ := h
    obtain ⟨R1, a1, a2, a3, a4⟩ := exprRow_tracks hc (hs id List.mem_cons_self) h1 ht hl (hd _ le_rfl)
    obtain ⟨R2, b1, b2, b3, b4⟩ := ih (k + 1) (fun i hi => hs i (List.mem_cons_of_mem _ hi)) h2 a4 a3 (fun row hrow hc' => by
      rcases hc' with hc' | rfl
      · exact hd row (by omega) hc'
      · omega)
    refine ⟨R2, fun s => ?_, b2.trans a2, b3, b4.congr (fun row => ?_) fun _ => rfl⟩
    · rw [List.zipIdx_cons, List.foldlM_cons, a1 s, ok_bind, b1 s]
    · rw [List.length_cons]
      constructor
      · rintro ((h | rfl) | h)
        · exact .inl h
        · exact .inr (by omega)
        · exact .inr (by omega)
      · rintro (h | h)
        · exact .inl (.inl h)
        · by_cases he : row = cs.numPoseExpressions + k
          · exact .inl (.inr he)
          · exact .inr (by omega)

/-! ## Poses -/

/-- One point of a cluster: residuals only. -/
noncomputable def ClusteredSystem.pointResidual (cs : ClusteredSystem) (elements : List EncodedElement) (transformed values : List F)
    (pose : Pose2D F) (st : Nat × List F) (point : Nat) : R (Nat × List F) := do
  let ((x, y), _, (x', y')) ← cs.pointTerm elements transformed values point
  let t := pose.transformPoint x y
  let residuals ← setIdx st.2 st.1 (t.1 - x')
  let residuals ← setIdx residuals (st.1 + 1) (t.2 - y')
  pure (st.1 + 2, residuals)

/-- The pose as a function of the values. -/
def poseOf (w : List F) (k : Nat) : Pose2D F := ⟨w.getD (3 * k) 0, w.getD (3 * k + 1) 0, w.getD (3 * k + 2) 0⟩

theorem poseAt_set {k : Nat} {pose : Pose2D ℝ} (h : poseAt u k = .ok pose) (s : ℝ) : poseAt (u.set c s) k = .ok (poseOf (u.set c s) k) := by
  simp only [poseAt, bind_eq_ok] at h
  obtain ⟨a, h1, b, h2, d, h3, -⟩ := h
  rw [poseAt, idx_set h1 s, ok_bind, idx_set h2 s, ok_bind, idx_set h3 s, ok_bind]
  rfl

theorem poseAt_eq {k : Nat} {pose : Pose2D ℝ} (h : poseAt u k = .ok pose) : pose = poseOf u k := by
  have := poseAt_set (c := 0) h (u.getD 0 0)
  rw [set_getD_self, h, Except.ok.injEq] at this
  exact this

theorem pointTerm_set {elements : List EncodedElement} {T : List ℝ} {point : Nat} {x y x' y' : ℝ} {v : Nat}
    (h : cs.pointTerm elements T u point = .ok ((x, y), v, (x', y'))) (s : ℝ) :
    cs.pointTerm elements T (u.set c s) point = .ok ((x, y), v, ((u.set c s).getD v 0, (u.set c s).getD (v + 1) 0)) := by
  rw [ClusteredSystem.pointTerm, bind_eq_ok] at h
  obtain ⟨el, h1, h⟩ := h
  cases el with
  | point i =>
    simp only [bind_eq_ok, unwrap_eq_ok] at h
    obtain ⟨a, h2, b, h3, v', h4, p, h5, q, h6, h7⟩ := h
    cases h7
    rw [ClusteredSystem.pointTerm, h1, ok_bind]
    have h4' : unwrap (some v) = .ok v := rfl
    simp only [h2, h3, h4, h4', idx_set h5 s, idx_set h6 s, ok_bind]
    rfl
  | length i => cases h
  | line a b => cases h
  | circle a b => cases h

theorem entrySum_cons (p : Nat × Nat × ℝ) (ts : List (Nat × Nat × ℝ)) (r c : Nat) :
    entrySum (p :: ts) r c = (if p.1 = r ∧ p.2.1 = c then p.2.2 else 0) + entrySum ts r c := by
  by_cases h : p.1 = r ∧ p.2.1 = c <;> simp [entrySum, h]

theorem pointRows_tracks (hc : c < u.length) {elements : List EncodedElement} {T : List ℝ} {k point : Nat} {pose : Pose2D ℝ} (hp : poseAt u k = .ok pose)
    {st st' : Nat × List ℝ × List (Nat × Nat × ℝ)} (h : cs.pointRows elements T u k pose st point = .ok st')
    {done : Nat → Prop} {R : ℝ → List ℝ} (ht : Tracks c (u.getD c 0) done R st.2.1 st.2.2)
    (hl : ∀ s, (R s).length = st.2.1.length) (h0 : ¬ done st.1) (h1 : ¬ done (st.1 + 1)) :
    ∃ R' : ℝ → List ℝ, (∀ s, cs.pointResidual elements T (u.set c s) (poseOf (u.set c s) k) (st.1, R s) point = .ok (st'.1, R' s)) ∧
      st'.1 = st.1 + 2 ∧ st'.2.1.length = st.2.1.length ∧ (∀ s, (R' s).length = st'.2.1.length) ∧
      Tracks c (u.getD c 0) (fun row => done row ∨ row = st.1 ∨ row = st.1 + 1) R' st'.2.1 st'.2.2 := by
  have hpose := poseAt_eq hp
  simp only [ClusteredSystem.pointRows, bind_eq_ok, setIdx_eq_ok] at h
  obtain ⟨⟨⟨x, y⟩, v, ⟨x', y'⟩⟩, q1, rs1, ⟨q2, q3⟩, rs2, ⟨q4, q5⟩, q6⟩ := h
  cases q6
  have hpt := fun s => pointTerm_set (c := c) q1 s
  have hchain := fun g0 g1 => C50_pose_chain_rule (set_getD_deriv u hc (3 * k)) (set_getD_deriv u hc (3 * k + 1)) (set_getD_deriv u hc (3 * k + 2)) x y g0 g1
  have hx := (hchain 1 0).sub (set_getD_deriv u hc v)
  have hy := (hchain 0 1).sub (set_getD_deriv u hc (v + 1))
  simp only [set_getD_self] at hx hy
  refine ⟨fun s => ((R s).set st.1 (((poseOf (u.set c s) k).transformPoint x y).1 - (u.set c s).getD v 0)).set (st.1 + 1)
    (((poseOf (u.set c s) k).transformPoint x y).2 - (u.set c s).getD (v + 1) 0), fun s => ?_, rfl, ?_, fun s => ?_, ?_⟩
  · rw [ClusteredSystem.pointResidual, hpt s, ok_bind]
    have e1 : setIdx (R s) st.1 (((poseOf (u.set c s) k).transformPoint x y).1 - (u.set c s).getD v 0) = .ok _ := (setIdx_eq_ok ..).2 ⟨by rw [hl]; exact q2, rfl⟩
    simp only [e1, ok_bind]
    have e2 : setIdx ((R s).set st.1 (((poseOf (u.set c s) k).transformPoint x y).1 - (u.set c s).getD v 0)) (st.1 + 1)
        (((poseOf (u.set c s) k).transformPoint x y).2 - (u.set c s).getD (v + 1) 0) = .ok _ :=
      (setIdx_eq_ok ..).2 ⟨by rw [List.length_set, hl]; rw [← q3, List.length_set] at q4; exact q4, rfl⟩
    simp only [e2, ok_bind]
    rfl
  · rw [← q5, ← q3, List.length_set, List.length_set]
  · rw [List.length_set, List.length_set, hl, ← q5, ← q3, List.length_set, List.length_set]
  · have w1 := ht.write (r := st.1) h0 q2 (fun s => by rw [hl]; exact q2)
      (ρ := fun s => ((poseOf (u.set c s) k).transformPoint x y).1 - (u.set c s).getD v 0)
      (new := [(st.1, 3 * k, (pose.gradientChainRulePoint x y 1 0).1), (st.1, 3 * k + 1, (pose.gradientChainRulePoint x y 1 0).2.1),
        (st.1, 3 * k + 2, (pose.gradientChainRulePoint x y 1 0).2.2), (st.1, v, -1)]) (by simp) (by
        refine (hx.congr_deriv ?_).congr_of_eventuallyEq (Filter.Eventually.of_forall fun s => ?_)
        · subst hpose
          simp only [entrySum_cons, poseOf, true_and]
          simp only [entrySum, List.filter_nil, List.map_nil, List.sum_nil]
          split_ifs <;> ring
        · simp [poseOf])
    have w2 := w1.write (r := st.1 + 1) (by simp [h1]) (by rw [List.length_set]; rw [← q3, List.length_set] at q4; exact q4) (fun s => by rw [List.length_set, hl]; rw [← q3, List.length_set] at q4; exact q4)
      (ρ := fun s => ((poseOf (u.set c s) k).transformPoint x y).2 - (u.set c s).getD (v + 1) 0)
      (new := [(st.1 + 1, 3 * k, (pose.gradientChainRulePoint x y 0 1).1), (st.1 + 1, 3 * k + 1, (pose.gradientChainRulePoint x y 0 1).2.1),
        (st.1 + 1, 3 * k + 2, (pose.gradientChainRulePoint x y 0 1).2.2), (st.1 + 1, v + 1, -1)]) (by simp) (by
        refine (hy.congr_deriv ?_).congr_of_eventuallyEq (Filter.Eventually.of_forall fun s => ?_)
        · subst hpose
          simp only [entrySum_cons, poseOf, true_and]
          simp only [entrySum, List.filter_nil, List.map_nil, List.sum_nil]
          split_ifs <;> ring
        · simp [poseOf])
    have hcur : ((st.2.1.set st.1 (((poseOf (u.set c (u.getD c 0)) k).transformPoint x y).1 - (u.set c (u.getD c 0)).getD v 0)).set (st.1 + 1)
        (((poseOf (u.set c (u.getD c 0)) k).transformPoint x y).2 - (u.set c (u.getD c 0)).getD (v + 1) 0)) = rs2 := by
      have h9 := hpt (u.getD c 0)
      simp only [set_getD_self] at h9
      rw [q1] at h9
      simp only [Except.ok.injEq, Prod.mk.injEq, true_and] at h9
      rw [set_getD_self, ← q5, ← q3, hpose, h9.1, h9.2]
    rw [hcur] at w2
    refine w2.congr (fun row => by rw [or_assoc]) fun row => ?_
    simp only [entrySum_append, entrySum_cons]
    simp only [entrySum, List.filter_nil, List.map_nil, List.sum_nil]
    ring

theorem points_tracks (hc : c < u.length) {elements : List EncodedElement} {T : List ℝ} {k : Nat} {pose : Pose2D ℝ} (hp : poseAt u k = .ok pose) :
    ∀ (l : List Nat) {st st' : Nat × List ℝ × List (Nat × Nat × ℝ)} {done : Nat → Prop} {R : ℝ → List ℝ},
    l.foldlM (cs.pointRows elements T u k pose) st = .ok st' → Tracks c (u.getD c 0) done R st.2.1 st.2.2 → (∀ s, (R s).length = st.2.1.length) →
    (∀ row, st.1 ≤ row → row < st.1 + 2 * l.length → ¬ done row) →
    ∃ R' : ℝ → List ℝ, (∀ s, l.foldlM (cs.pointResidual elements T (u.set c s) (poseOf (u.set c s) k)) (st.1, R s) = .ok (st'.1, R' s)) ∧
      st'.1 = st.1 + 2 * l.length ∧ st'.2.1.length = st.2.1.length ∧ (∀ s, (R' s).length = st'.2.1.length) ∧
      Tracks c (u.getD c 0) (fun row => done row ∨ (st.1 ≤ row ∧ row < st.1 + 2 * l.length)) R' st'.2.1 st'.2.2 := by
  intro l
  induction l with
  | nil =>
    intro st st' done R h ht hl hd
    cases h
    exact ⟨R, fun s => rfl, rfl, rfl, hl, ht.congr (fun row => by simp) fun _ => rfl⟩
  | cons pt l ih =>
    intro st st' done R h ht hl hd
    rw [List.foldlM_cons, bind_eq_ok] at h
    obtain ⟨st1, h1, h2⟩ := h
    rw [List.length_cons] at hd ⊢
    obtain ⟨R1, a1, a2, a3, a4, a5⟩ := pointRows_tracks hc hp h1 ht hl (hd _ le_rfl (by omega)) (hd _ (by omega) (by omega))
    obtain ⟨R2, b1, b2, b3, b4, b5⟩ := ih h2 a5 a4 (fun row hr1 hr2 hc' => by
      rcases hc' with hc' | hc'
      · exact hd row (by omega) (by omega) hc'
      · omega)
    refine ⟨R2, fun s => ?_, by omega, b3.trans a3, b4, b5.congr (fun row => ?_) fun _ => rfl⟩
    · rw [List.foldlM_cons, a1 s, ok_bind, b1 s]
    · constructor
      · rintro ((h | h) | h)
        · exact .inl h
        · exact .inr (by omega)
        · exact .inr (by omega)
      · rintro (h | h)
        · exact .inl (.inl h)
        · by_cases he : row = st.1 ∨ row = st.1 + 1
          · exact .inl (.inr he)
          · exact .inr (by omega)

/-- The number of points in a list of clusters. -/
def countPoints (l : List (Nat × List Nat)) : Nat := (l.map (fun p => p.2.length)).sum

theorem clusters_tracks (hc : c < u.length) {elements : List EncodedElement} {T : List ℝ} :
    ∀ (l : List (Nat × List Nat)) (k : Nat) {st st' : Nat × List ℝ × List (Nat × Nat × ℝ)} {done : Nat → Prop} {R : ℝ → List ℝ},
    (l.zipIdx k).foldlM (fun (st : Nat × List ℝ × List (Nat × Nat × ℝ)) (ck : (Nat × List Nat) × Nat) => do
      let pose ← poseAt u ck.2
      ck.1.2.foldlM (cs.pointRows elements T u ck.2 pose) st) st = .ok st' →
    Tracks c (u.getD c 0) done R st.2.1 st.2.2 → (∀ s, (R s).length = st.2.1.length) →
    (∀ row, st.1 ≤ row → row < st.1 + 2 * countPoints l → ¬ done row) →
    ∃ R' : ℝ → List ℝ, (∀ s, (l.zipIdx k).foldlM (fun (st : Nat × List ℝ) (ck : (Nat × List Nat) × Nat) => do
        let pose ← poseAt (u.set c s) ck.2
        ck.1.2.foldlM (cs.pointResidual elements T (u.set c s) pose) st) (st.1, R s) = .ok (st'.1, R' s)) ∧
      st'.1 = st.1 + 2 * countPoints l ∧ st'.2.1.length = st.2.1.length ∧ (∀ s, (R' s).length = st'.2.1.length) ∧
      Tracks c (u.getD c 0) (fun row => done row ∨ (st.1 ≤ row ∧ row < st.1 + 2 * countPoints l)) R' st'.2.1 st'.2.2 := by
  intro l
  induction l with
  | nil =>
    intro k st st' done R h ht hl hd
    cases h
    exact ⟨R, fun s => rfl, rfl, rfl, hl, ht.congr (fun row => by simp [countPoints]) fun _ => rfl⟩
  | cons q l ih =>
    intro k st st' done R h ht hl hd
    rw [List.zipIdx_cons, List.foldlM_cons, bind_eq_ok] at h
    obtain ⟨st1, h1, h2⟩ := h
    rw [bind_eq_ok] at h1
    obtain ⟨pose, hp, h1⟩ := h1
    have hcount : countPoints (q :: l) = q.2.length + countPoints l := by simp [countPoints]
    rw [hcount] at hd ⊢
    obtain ⟨R1, a1, a2, a3, a4, a5⟩ := points_tracks hc hp q.2 h1 ht hl (fun row hr1 hr2 => hd row hr1 (by omega))
    obtain ⟨R2, b1, b2, b3, b4, b5⟩ := ih (k + 1) h2 a5 a4 (fun row hr1 hr2 hc' => by
      rcases hc' with hc' | hc'
      · exact hd row (by omega) (by omega) hc'
      · omega)
    refine ⟨R2, fun s => ?_, by omega, b3.trans a3, b4, b5.congr (fun row => ?_) fun _ => rfl⟩
    · rw [List.zipIdx_cons, List.foldlM_cons]
      simp only [poseAt_set hp s, ok_bind]
      rw [a1 s, ok_bind, b1 s]
    · constructor
      · rintro ((h | h) | h)
        · exact .inl h
        · exact .inr (by omega)
        · exact .inr (by omega)
      · rintro (h | h)
        · exact .inl (.inl h)
        · by_cases he : row < st.1 + 2 * q.2.length
          · exact .inl (.inr (by omega))
          · exact .inr (by omega)

end

theorem countPoints_pushEntry (m : IMap Nat (List Nat)) (hm : m.keys.Nodup) (k v : Nat) :
    countPoints (m.pushEntry k v) = countPoints m + 1 ∧ (m.pushEntry k v).keys.Nodup := by
  rw [IMap.pushEntry]
  by_cases hk : k ∈ m.keys
  · obtain ⟨m1, m2, q, rfl, h1, h2⟩ : ∃ (m1 m2 : List (Nat × List Nat)) (q : List Nat), m = m1 ++ (k, q) :: m2 ∧ k ∉ m1.map Prod.fst ∧ k ∉ m2.map Prod.fst := by
      obtain ⟨p, hp, hpk⟩ := List.mem_map.1 hk
      obtain ⟨m1, m2, rfl⟩ := List.append_of_mem hp
      obtain ⟨k', q⟩ := p
      cases hpk
      refine ⟨m1, m2, q, rfl, ?_, ?_⟩
      · intro hc
        rw [IMap.keys, List.map_append, List.nodup_append] at hm
        exact hm.2.2 _ hc _ (by simp) rfl
      · rw [IMap.keys, List.map_append, List.nodup_append] at hm
        simpa using (List.nodup_cons.1 hm.2.1).1
    have hid : ∀ (l : List (Nat × List Nat)) (w : List Nat), k ∉ l.map Prod.fst → l.map (fun p => if p.1 == k then (k, w) else p) = l := by
      intro l w hl
      conv_rhs => rw [← List.map_id l]
      refine List.map_congr_left fun p hp => ?_
      rw [if_neg]
      · rfl
      · simp only [beq_iff_eq]
        rintro rfl
        exact hl (List.mem_map_of_mem hp)
    have hf : m1.find? (fun p => p.1 == k) = none := by
      rw [List.find?_eq_none]
      intro p hp
      simp only [beq_iff_eq]
      rintro rfl
      exact h1 (List.mem_map_of_mem hp)
    have hins : IMap.insert (m1 ++ (k, q) :: m2) k (((IMap.get? (m1 ++ (k, q) :: m2) k).getD []) ++ [v]) = m1 ++ (k, q ++ [v]) :: m2 := by
      rw [IMap.insert, if_pos (by simp [IMap.contains]), List.map_append, List.map_cons, hid m1 _ h1, hid m2 _ h2]
      simp [IMap.get?, List.find?_append, hf]
    rw [hins]
    refine ⟨by simp [countPoints]; omega, ?_⟩
    simpa [IMap.keys] using hm
  · have hc : m.contains k = false := by
      simp only [IMap.contains, List.any_eq_false, beq_iff_eq]
      rintro p hp rfl
      exact hk (List.mem_map_of_mem hp)
    have hg : m.get? k = none := by
      rw [IMap.get?, List.find?_eq_none.2]
      · rfl
      · intro p hp
        simp only [beq_iff_eq]
        rintro rfl
        exact hk (List.mem_map_of_mem hp)
    rw [IMap.insert, hc, hg]
    refine ⟨by simp [countPoints], ?_⟩
    simp only [IMap.keys, Bool.false_eq_true, if_false, List.map_append, List.map_cons, List.map_nil]
    rw [List.nodup_append]
    refine ⟨hm, List.nodup_singleton _, ?_⟩
    rintro a ha b hb rfl
    rw [List.mem_singleton.1 hb] at ha
    exact hk ha

/-- `build` counts two equations for each point of each cluster. -/
theorem build_counts {s : System F} {T : List F} {step : RecombinationStep} {cs : ClusteredSystem} {values : List F}
    (h : ClusteredSystem.build s T step = .ok (cs, values)) : cs.numPoseExpressions = 2 * countPoints cs.clusters ∧ cs.clusters.keys.Nodup := by
  simp only [ClusteredSystem.build, bind_eq_ok] at h
  obtain ⟨es, -, reach, -, elements, -, ⟨clusters, np⟩, h1, ⟨mapping, vs⟩, -, h⟩ := h
  cases h
  refine foldlM_inv (fun st : IMap Nat (List Nat) × Nat => st.2 = 2 * countPoints st.1 ∧ st.1.keys.Nodup) _ _ _ _ ⟨rfl, by simp [IMap.keys]⟩
    (fun st i st' _ hst h3 => ?_) h1
  rw [collectClusters, bind_eq_ok] at h3
  obtain ⟨el, -, h3⟩ := h3
  split at h3
  · cases h3; exact hst
  · rename_i clusters' _
    split at h3
    · cases h3
      have key : ∀ (l : List Nat) (m : IMap Nat (List Nat)), m.keys.Nodup →
          countPoints (l.foldl (fun (m : IMap Nat (List Nat)) c => m.pushEntry c i) m) = countPoints m + l.length ∧
          (IMap.keys (l.foldl (fun (m : IMap Nat (List Nat)) c => m.pushEntry c i) m)).Nodup := by
        intro l
        induction l with
        | nil => intro m hm; exact ⟨rfl, hm⟩
        | cons a l ih =>
          intro m hm
          obtain ⟨p1, p2⟩ := countPoints_pushEntry m hm a i
          obtain ⟨p3, p4⟩ := ih _ p2
          exact ⟨by rw [List.foldl_cons, p3, p1, List.length_cons]; omega, p4⟩
      obtain ⟨k1, k2⟩ := key clusters' st.1 hst.2
      exact ⟨by simp only [k1, hst.1]; omega, k2⟩
    · cases h3; exact hst

theorem calculateResiduals_eq (cs : ClusteredSystem) (s : System F) (exprs : List (Expr F)) (T values : List F) :
    cs.calculateResiduals s exprs T values = (do
      let residuals ← cs.expressions.zipIdx.foldlM (cs.exprResidual exprs values)
        (List.replicate (cs.expressions.length + cs.numPoseExpressions) (0 : F))
      let (_, residuals) ← cs.clusters.zipIdx.foldlM (fun (st : Nat × List F) (ck : (Nat × List Nat) × Nat) => do
        let pose ← poseAt values ck.2
        ck.1.2.foldlM (cs.pointResidual s.elements T values pose) st) (0, residuals)
      pure residuals) := rfl

/-- C63: the problems that `RecursiveAssembly` hands to the optimiser have correct Jacobians. Whenever the assembly of residuals
and Jacobian returns for some values of the variables (poses of the clusters, then coordinates), the residuals are those of
`calculate_residuals`, and the triplets, summed per position, are the derivatives of every residual with respect to every
variable. -/
theorem C63_cluster_jacobian_is_derivative {s : System ℝ} {T : List ℝ} {step : RecombinationStep} {cs : ClusteredSystem} {start : List ℝ}
    (hb : ClusteredSystem.build s T step = .ok (cs, start)) {exprs : List (Expr ℝ)} {u : List ℝ}
    {residuals rs : List ℝ} {ts : List (Nat × Nat × ℝ)} (hr : residuals.length = cs.expressions.length + cs.numPoseExpressions)
    (hrun : (cs.problem s exprs T).sparseJacobian u residuals [] = .ok (rs, ts)) (hs : cs.SmoothOn exprs u) :
    (cs.problem s exprs T).residuals u = .ok rs ∧
      ∀ row < (cs.problem s exprs T).numResiduals, ∀ c < u.length, ∃ f : ℝ → ℝ,
        (∀ z, ∃ rs', (cs.problem s exprs T).residuals (u.set c z) = .ok rs' ∧ rs'[row]? = some (f z)) ∧
        HasDerivAt f (entrySum ts row c) (u.getD c 0) := by
  have hcount := (build_counts hb).1
  simp only [ClusteredSystem.problem, ClusteredSystem.residualsAndTriplets, bind_eq_ok] at hrun
  obtain ⟨⟨rs1, ts1⟩, h1, ⟨n2, rs2, ts2⟩, h2, h3⟩ := hrun
  obtain ⟨rfl, rfl⟩ : rs = rs2 ∧ ts = ts2 := by cases h3; exact ⟨rfl, rfl⟩
  have main : ∀ c < u.length, ∃ R : ℝ → List ℝ, (∀ z, cs.calculateResiduals s exprs T (u.set c z) = .ok (R z)) ∧
      (∀ z, (R z).length = rs.length) ∧ rs.length = cs.expressions.length + cs.numPoseExpressions ∧
      ∀ row < cs.expressions.length + cs.numPoseExpressions, ∃ f : ℝ → ℝ, (∀ z, (R z)[row]? = some (f z)) ∧ rs[row]? = some (f (u.getD c 0)) ∧
        HasDerivAt f (entrySum ts row c) (u.getD c 0) := by
    intro c hc
    obtain ⟨R1, a1, a2, a3, a4⟩ := exprs_tracks (cs := cs) (exprs := exprs) hc cs.expressions 0 (done := fun _ => False)
      (R := fun _ => List.replicate (cs.expressions.length + cs.numPoseExpressions) 0) hs h1
      ⟨fun _ h => h.elim, fun _ _ => rfl⟩ (fun _ => by rw [List.length_replicate, hr]) (fun _ _ h => h)
    obtain ⟨R2, b1, -, b3, b4, b5⟩ := clusters_tracks (cs := cs) (elements := s.elements) (T := T) hc cs.clusters 0 h2 a4 a3 (fun row _ hr2 hd => by
      simp only [false_or] at hd
      omega)
    refine ⟨R2, fun z => ?_, b4, b3.trans (a2.trans hr), fun row hrow => b5.deriv row ?_⟩
    · rw [calculateResiduals_eq, a1 z, ok_bind]
      simp only [b1 z, ok_bind]
      rfl
    · by_cases h : row < cs.numPoseExpressions
      · exact .inr ⟨Nat.zero_le _, by omega⟩
      · exact .inl (.inr (by omega))
  refine ⟨?_, fun row hrow c hc => ?_⟩
  · change cs.calculateResiduals s exprs T u = .ok rs
    by_cases hu : 0 < u.length
    · obtain ⟨R, p1, p2, p3, p4⟩ := main 0 hu
      have p5 := p1 (u.getD 0 0)
      rw [set_getD_self] at p5
      rw [p5]
      congr 1
      apply List.ext_getElem?
      intro row
      by_cases hrow : row < cs.expressions.length + cs.numPoseExpressions
      · obtain ⟨f, f1, f2, -⟩ := p4 row hrow
        rw [f1, f2]
      · rw [List.getElem?_eq_none (by rw [p2, p3]; omega), List.getElem?_eq_none (by rw [p3]; omega)]
    · have hu : u = [] := List.length_eq_zero_iff.1 (by omega)
      subst hu
      have he : cs.expressions = [] := by
        cases hce : cs.expressions with
        | nil => rfl
        | cons id l =>
          rw [hce, List.zipIdx_cons, List.foldlM_cons] at h1
          simp only [bind_eq_ok, idx_eq_ok] at h1
          obtain ⟨_, ⟨e, -, vars, hv, -⟩, -⟩ := h1
          have hno : ∀ v x, cs.variable ([] : List ℝ) v ≠ .ok x := by
            intro v x hx
            simp only [ClusteredSystem.variable, bind_eq_ok, idx_eq_ok] at hx
            obtain ⟨i, -, y, h, -⟩ := hx
            simp at h
          have hex : ∃ v, v ∈ e.variableIndices := by cases e <;> exact ⟨_, List.mem_cons_self⟩
          obtain ⟨v, hv'⟩ := hex
          obtain ⟨x, -, hx⟩ := forall₂_mem (mapM_forall hv) hv'
          exact absurd hx (hno v x)
      have hcl : cs.clusters = [] := by
        cases hce : cs.clusters with
        | nil => rfl
        | cons q l =>
          rw [hce, List.zipIdx_cons, List.foldlM_cons] at h2
          simp only [bind_eq_ok, poseAt, idx_eq_ok] at h2
          obtain ⟨_, ⟨_, ⟨_, h, -⟩, -⟩, -⟩ := h2
          simp at h
      have hn : cs.numPoseExpressions = 0 := by rw [hcount, hcl]; rfl
      rw [he] at h1
      rw [hcl] at h2
      cases h1
      cases h2
      rw [he, hn] at hr
      have : residuals = [] := List.length_eq_zero_iff.1 hr
      rw [calculateResiduals_eq, he, hcl, hn, this]
      rfl
  · obtain ⟨R, p1, p2, p3, p4⟩ := main c hc
    obtain ⟨f, f1, -, f3⟩ := p4 row hrow
    exact ⟨f, fun z => ⟨R z, p1 z, f1 z⟩, f3⟩

/-! ## A case -/

/-- Three points and two distances. -/
noncomputable def chainOps : List (Op ℝ) :=
  [.createPoint 0 0, .createPoint 1 0, .createPoint 3 1, .createCon (.pointPointDistance 0 1 1), .createCon (.pointPointDistance 1 2 1)]

/-- The second step of its plan: the points 0 and 1 form a cluster, with point 1 on its frontier. -/
def chainStep : RecombinationStep :=
  ⟨[1], [1, 2], [2], [(1, [0])], [(0, [0, 1])], [(0, [1])]⟩

/-- The problem of that step: three variables for the pose of the cluster, then the coordinates of the points 1 and 2. -/
def chainCluster : ClusteredSystem :=
  ⟨7, [1, 2], [(0, [1])], [1], 2, [(2, 3), (3, 4), (4, 5), (5, 6)]⟩

theorem chain_sys {c : Client ℝ} (h : Reaches 0 chainOps c) : c.sys.elements = [.point 0, .point 2, .point 4] ∧ c.sys.vars = [0, 0, 1, 0, 3, 1] ∧
    c.sys.expressions = [.pointPointDistance 0 2 1, .pointPointDistance 2 4 1] ∧ c.sys.constraints = [⟨.pointPointDistance, 0⟩, ⟨.pointPointDistance, 1⟩] := by
  have key : (do let c ← (Client.new ℝ 0).run chainOps
                 pure (c.sys.elements, c.sys.vars, c.sys.expressions, c.sys.constraints) : R _) =
    .ok ([.point 0, .point 2, .point 4], [0, 0, 1, 0, 3, 1], [.pointPointDistance 0 2 1, .pointPointDistance 2 4 1],
      [⟨.pointPointDistance, 0⟩, ⟨.pointPointDistance, 1⟩]) := rfl
  rw [h.run, ok_bind] at key
  simpa [pure_eq_ok] using key

/-- The type of the contents of a step. -/
abbrev StepData := (List Nat × List Nat × List Nat) × List (Nat × List Nat) × List (Nat × List Nat) × List (Nat × List Nat)

/-- The contents of a step. -/
def RecombinationStep.data (s : RecombinationStep) : StepData :=
  ((s.constraints, s.elements, s.freeElements), s.onFrontiers, s.ownedElements, s.frontierElements)

/-- The step is the second one of the plan. -/
example : okAnd (recursivePlans [.createPoint 0 0, .createPoint 1 0, .createPoint 3 1, .createCon (.pointPointDistance 0 1 1),
    .createCon (.pointPointDistance 1 2 1)])
    (fun l => l.map (fun r => okAnd r (fun (s : List RecombinationStep) => (s.map RecombinationStep.data)[1]? == some chainStep.data)) == [true]) = true := by
  decide +kernel

/-- A case for C63: that step, with the cluster turned by `1` and moved. -/
example : ∃ c, Reaches 0 chainOps c ∧ ClusteredSystem.build c.sys c.sys.vars chainStep = .ok (chainCluster, [0, 0, 0, 1, 0, 3, 1]) ∧
    (∃ rs ts, (chainCluster.problem c.sys c.sys.expressions c.sys.vars).sparseJacobian [1, 2, 3, 1, 0, 3, 1] [0, 0, 0] [] = .ok (rs, ts)) ∧
    chainCluster.SmoothOn c.sys.expressions [1, 2, 3, 1, 0, 3, 1] := by
  obtain ⟨c, h⟩ := exists_reaches 0 chainOps (by
    simp [chainOps, Store.LegalRun, Store.Legal, Store.empty, Store.step, Store.IsPoint, Store.ConOk]) (by simp [chainOps])
  obtain ⟨h1, h2, h3, h4⟩ := chain_sys h
  refine ⟨c, h, ?_, ?_, ?_⟩
  · unfold ClusteredSystem.build System.constraintExpressions
    rw [h1, h2, h4]
    rfl
  · unfold ClusteredSystem.problem
    simp only
    unfold ClusteredSystem.residualsAndTriplets
    rw [h1, h2, h3]
    exact ⟨_, _, rfl⟩
  · rw [h3]
    intro id hid e he vars hv
    simp only [chainCluster, List.mem_singleton] at hid
    subst hid
    simp only [List.getElem?_cons_succ, List.getElem?_cons_zero, Option.some.injEq] at he
    subst he
    have : [Variable.free 1 3, Variable.free 0 4, Variable.free 3 5, Variable.free (1 : ℝ) 6] = vars := by
      have h5 : (Expr.pointPointDistance 2 4 (1 : ℝ)).variableIndices.mapM (chainCluster.variable [1, 2, 3, 1, 0, 3, 1]) =
        .ok [Variable.free 1 3, Variable.free 0 4, Variable.free 3 5, Variable.free (1 : ℝ) 6] := rfl
      rw [h5] at hv
      exact Except.ok.inj hv
    subst this
    simp [SmoothAt, Variable.value]

end Fiksi
