import Verif.Proofs.Stay
import Verif.Props.SolveRecursive
/-!
# Solving by recursive assembly where the optimiser returns its start, in any arithmetic
-/
namespace Fiksi

open Spec

set_option linter.unusedSectionVars false
variable {F : Type} [Add F] [Sub F] [Mul F] [Div F] [Neg F] [Zero F] [One F] [FloatOps F]

/-- Levenberg–Marquardt, if it returns, returns its start if the sum of squares computed there is below the bound. -/
theorem lm_stays_ok {p : Problem F} (hp : p.Consistent) {ls : LeastSquares F} {fuel : Nat} {x x' : List F} (h : levenbergMarquardt p ls fuel x = .ok x')
    (hr : ∀ r, p.residuals x = .ok r → FloatOps.ltB (normSquared (r.map (fun r => -r))) (ratio 1 (10 ^ 8)) = true) : x' = x := by
  rw [levenbergMarquardt, bind_eq_ok] at h
  obtain ⟨st, h1, h2⟩ := h
  cases h2
  rw [lmRun, bind_eq_ok] at h1
  obtain ⟨⟨st0, sym⟩, h1, h2⟩ := h1
  rw [lmStart, bind_eq_ok] at h1
  obtain ⟨rt, h3, h1⟩ := h1
  rw [bind_eq_ok] at h1
  obtain ⟨sym', -, h1⟩ := h1
  cases h1
  rw [lmJacobian, bind_eq_ok] at h3
  obtain ⟨⟨rs, ts⟩, h4, h3⟩ := h3
  cases h3
  have h5 := hr rs (hp x rs ts h4)
  simp only at h2
  rw [lmOuter, if_pos h5] at h2
  cases h2
  rfl

/-- A list of residuals that starts with `n` zeros and has only small entries. -/
def Settled (Small : F → Prop) (n m : Nat) (l : List F) : Prop := l.length = m ∧ (∀ i < n, l[i]? = some 0) ∧ ∀ y ∈ l, Small y

theorem Settled.set {Small : F → Prop} {n m i : Nat} {l l' : List F} {x : F} (hl : Settled Small n m l) (hx : Small x) (hi : i < n → x = 0) (h : setIdx l i x = .ok l') :
    Settled Small n m l' := by
  rw [setIdx_eq_ok] at h
  obtain ⟨h1, rfl⟩ := h
  refine ⟨by rw [List.length_set]; exact hl.1, fun j hj => ?_, fun y hy => ?_⟩
  · by_cases hij : i = j
    · subst hij
      rw [List.getElem?_set_self h1, hi hj]
    · rw [List.getElem?_set_ne hij]
      exact hl.2.1 j hj
  · rcases List.mem_or_eq_of_mem_set hy with hy | rfl
    · exact hl.2.2 y hy
    · exact hx

theorem Settled.split {Small : F → Prop} {n m : Nat} {l : List F} (hl : Settled Small n (m + n) l) : ∃ l', l = List.replicate n 0 ++ l' ∧ l'.length = m ∧ ∀ y ∈ l', Small y := by
  refine ⟨l.drop n, ?_, by rw [List.length_drop, hl.1]; omega, fun y hy => hl.2.2 y (List.mem_of_mem_drop hy)⟩
  conv_lhs => rw [← List.take_append_drop n l]
  congr 1
  rw [List.eq_replicate_iff]
  refine ⟨by rw [List.length_take, hl.1]; omega, fun y hy => ?_⟩
  obtain ⟨i, hi⟩ := List.mem_iff_getElem?.1 hy
  have hlt : i < n := by
    have := (List.getElem?_eq_some_iff.1 hi).1
    rw [List.length_take] at this
    omega
  rw [List.getElem?_take_of_lt hlt, hl.2.1 i hlt] at hi
  cases hi
  rfl

section
variable {Small : F → Prop} {T : List F} (h0 : Small 0) (hsub : ∀ x ∈ T, x - x = 0) (hid : ∀ x ∈ T, ∀ y ∈ T, (⟨0, 0, 0⟩ : Pose2D F).transformPoint x y = (x, y))
include h0 hsub hid

/-- At the current values, the residuals that tie clusters to points vanish, and the others are those of the equations. -/
theorem clustered_residuals_settled {s : System F} {values : List F} {exprs : List (Expr F)} (hz : ∀ e ∈ exprs, ∀ r, e.calculateResidual (identityMap T) = .ok r → Small r)
    {cs : ClusteredSystem} (hr : AtRest s.elements T (3 * cs.clusters.length) cs.mapping values) {r : List F} (h : cs.calculateResiduals s exprs T values = .ok r) :
    Settled Small cs.numPoseExpressions (cs.expressions.length + cs.numPoseExpressions) r := by
  rw [ClusteredSystem.calculateResiduals, bind_eq_ok] at h
  obtain ⟨r1, h1, h⟩ := h
  rw [bind_eq_ok] at h
  obtain ⟨⟨k, r2⟩, h2, h⟩ := h
  cases h
  have hz1 : Settled Small cs.numPoseExpressions (cs.expressions.length + cs.numPoseExpressions) r1 := by
    refine foldlM_inv (Settled Small cs.numPoseExpressions (cs.expressions.length + cs.numPoseExpressions)) _ _ _ _
      ⟨by rw [List.length_replicate], fun i hi => by rw [List.getElem?_replicate, if_pos (by omega)], fun y hy => by rw [(List.mem_replicate.1 hy).2]; exact h0⟩
      (fun l ei l' _ hl h3 => ?_) h1
    simp only [bind_eq_ok] at h3
    obtain ⟨e, h4, vars, h5, rg, h6, h7⟩ := h3
    rw [idx_eq_ok] at h4
    refine hl.set (hz e (List.mem_of_getElem? h4) rg.1 (calculateResidual_mono (get := cs.variable values) (fun v var hv => ?_) ?_)) (fun hi => by omega) h7
    · simp only [ClusteredSystem.variable, bind_eq_ok, unwrap_eq_ok, idx_eq_ok] at hv
      obtain ⟨u, h8, x, h9, h10⟩ := hv
      cases h10
      obtain ⟨x', h11, h12⟩ := hr.value _ (IMap.mem_of_get? h8)
      rw [h9] at h11
      cases h11
      exact h12
    · rw [Expr.calculateResidual, mapM_value h5, ok_bind, h6]
      rfl
  refine foldlM_inv (fun st : Nat × List F => Settled Small cs.numPoseExpressions (cs.expressions.length + cs.numPoseExpressions) st.2) _ _ _ _ hz1 (fun st ck st' hck hst h3 => ?_) h2
  rw [bind_eq_ok] at h3
  obtain ⟨pose, h4, h3⟩ := h3
  have hlt : ck.2 < cs.clusters.length := by
    obtain ⟨a, i⟩ := ck
    exact (List.getElem?_eq_some_iff.1 (List.mem_zipIdx_iff_getElem?.1 hck)).1
  have hpose := poseAt_zero hr.poses hlt h4
  subst hpose
  refine foldlM_inv (fun st : Nat × List F => Settled Small cs.numPoseExpressions (cs.expressions.length + cs.numPoseExpressions) st.2) _ _ _ _ hst (fun st pt st' _ hst h5 => ?_) h3
  rw [bind_eq_ok] at h5
  obtain ⟨⟨⟨x, y⟩, u, x', y'⟩, h6, h5⟩ := h5
  rw [ClusteredSystem.pointTerm, bind_eq_ok] at h6
  obtain ⟨el, h10, h6⟩ := h6
  rw [idx_eq_ok] at h10
  have hxy : x = x' ∧ y = y' ∧ x ∈ T ∧ y ∈ T := by
    cases el with
    | point i =>
      simp only [bind_eq_ok, unwrap_eq_ok, idx_eq_ok] at h6
      obtain ⟨a, h11, b, h12, v, h13, a', h14, b', h15, h16⟩ := h6
      cases h16
      obtain ⟨q, h17, h18⟩ := hr.value _ (IMap.mem_of_get? h13)
      obtain ⟨q', h19, h20⟩ := hr.second _ (IMap.mem_of_get? h13) (List.mem_of_getElem? h10)
      rw [h14] at h17; rw [h15] at h19; rw [h11] at h18; rw [h12] at h20
      cases h17; cases h18; cases h19; cases h20
      exact ⟨rfl, rfl, List.mem_of_getElem? h11, List.mem_of_getElem? h12⟩
    | length _ => cases h6
    | line _ _ => cases h6
    | circle _ _ => cases h6
  obtain ⟨rfl, rfl, hx, hy⟩ := hxy
  simp only [hid x hx y hy, hsub x hx, hsub y hy, bind_eq_ok] at h5
  obtain ⟨l1, h7, l2, h8, h9⟩ := h5
  cases h9
  exact (hst.set h0 (fun _ => rfl) h7).set h0 (fun _ => rfl) h8

variable {V : List F} {scale : F}

omit h0 hsub in
theorem moveElement_stays {s : System F} {elements : List Nat} {st st' : SolveState F} {i : Nat} (h1 : st.transformed = T) (h2 : Rewritten V T scale st.vars)
    (h : moveElement s scale elements ⟨0, 0, 0⟩ st i = .ok st') : st'.transformed = T ∧ Rewritten V T scale st'.vars := by
  subst h1
  unfold moveElement at h
  split at h
  · cases h; exact ⟨rfl, h2⟩
  rw [bind_eq_ok] at h
  obtain ⟨el, -, h⟩ := h
  cases el with
  | point k =>
    simp only [bind_eq_ok, idx_eq_ok] at h
    obtain ⟨x, hx, y, hy, h⟩ := h
    simp only [hid x (List.mem_of_getElem? hx) y (List.mem_of_getElem? hy)] at h
    obtain ⟨t1, h3, t2, h4, v1, h5, v2, h6, h⟩ := h
    cases h
    rw [setIdx_eq_ok] at h3 h4
    obtain ⟨-, rfl⟩ := h3
    obtain ⟨-, rfl⟩ := h4
    refine ⟨by simp only [set_same hx, set_same hy], ?_⟩
    refine writeVars_rewritten (values := [x, y]) (l := [(k, 0), (k + 1, 1)]) (V₁ := st.vars) ?_ h2 ?_
    · intro p hp
      simp only [List.mem_cons, List.not_mem_nil, or_false] at hp
      rcases hp with rfl | rfl
      · exact ⟨x, rfl, hx⟩
      · exact ⟨y, rfl, hy⟩
    · simp only [List.foldlM_cons, List.foldlM_nil, writeVars, idx, List.getElem?_cons_zero, List.getElem?_cons_succ]
      simp only [ok_bind, h5, h6]
      rfl
  | length _ => cases h; exact ⟨rfl, h2⟩
  | line _ _ => cases h; exact ⟨rfl, h2⟩
  | circle _ _ => cases h; exact ⟨rfl, h2⟩

theorem solveStep_stays {ls : LeastSquares F} {fuel : Nat} {exprs : List (Expr F)} (hz : ∀ e ∈ exprs, ∀ r, e.calculateResidual (identityMap T) = .ok r → Small r) {m : Nat}
    (hlm : ∀ (n : Nat) (r : List F), r.length ≤ m → (∀ y ∈ r, Small y) → FloatOps.ltB (normSquared ((List.replicate n 0 ++ r).map (fun r => -r))) (ratio 1 (10 ^ 8)) = true)
    {s : System F} (ha : Apart s.elements) {step : RecombinationStep} (hm : ∀ es, step.constraints.mapM s.constraintExpressions = .ok es → es.flatten.length ≤ m) {st st' : SolveState F}
    (h1 : st.transformed = T) (h2 : Rewritten V T scale st.vars) (h : solveStep (crateOptimize ls fuel) s scale exprs st step = .ok st') :
    st'.transformed = T ∧ Rewritten V T scale st'.vars := by
  subst h1
  rw [solveStep, bind_eq_ok] at h
  obtain ⟨⟨cs, values⟩, h3, h⟩ := h
  simp only [bind_eq_ok] at h
  obtain ⟨values', h4, tr, h5, vars, h6, h7⟩ := h
  have hr := build_atRest ha h3
  have hcs : cs.expressions.length ≤ m := by
    obtain ⟨es, h8, h9⟩ := build_expressions h3
    rw [h9]
    exact hm es h8
  have h8 : values' = values := by
    refine lm_stays_ok (ClusteredSystem.problem_consistent _ _ _ _) h4 (fun r hr' => ?_)
    obtain ⟨l, rfl, h9, h10⟩ := (clustered_residuals_settled h0 hsub hid hz hr hr').split
    exact hlm _ l (by omega) h10
  subst h8
  have ht := writeTransformed_same hr.value h5
  have hv := writeVars_rewritten hr.value h2 h6
  subst ht
  refine foldlM_inv (fun s' : SolveState F => s'.transformed = st.transformed ∧ Rewritten V st.transformed scale s'.vars) _ _ ⟨vars, st.transformed, st.rng, st.calls ++ [cs.expressions]⟩ _ ⟨rfl, hv⟩
    (fun s1 ck s2 hck h9 h10 => ?_) h7
  rw [bind_eq_ok] at h10
  obtain ⟨pose, h11, h10⟩ := h10
  have hlt : ck.2 < cs.clusters.length := by
    obtain ⟨a, i⟩ := ck
    have := (List.getElem?_eq_some_iff.1 (List.mem_zipIdx_iff_getElem?.1 hck)).1
    simpa [IMap.keys] using this
  have hpose := poseAt_zero hr.poses hlt h11
  subst hpose
  exact foldlM_inv (fun s' : SolveState F => s'.transformed = st.transformed ∧ Rewritten V st.transformed scale s'.vars) _ _ _ _ h9
    (fun s3 i s4 _ h12 h13 => moveElement_stays hid h12.1 h12.2 h13) h10

end

/-- If the optimiser returns its start on all steps at the scaled values and `solve` returns, each variable keeps its value or is multiplied by the two rounded factors. -/
theorem Reaches.assembly_stays {counter : Nat} {ops : List (Op F)} {c : Client F} (h : Reaches counter ops c) {Small : F → Prop} (h0 : Small 0)
    (hsub : ∀ x ∈ c.sys.scaledVariables, x - x = 0) (hid : ∀ x ∈ c.sys.scaledVariables, ∀ y ∈ c.sys.scaledVariables, (⟨0, 0, 0⟩ : Pose2D F).transformPoint x y = (x, y))
    (hz : ∀ e ∈ c.sys.scaledExpressions, ∀ r, e.calculateResidual (identityMap c.sys.scaledVariables) = .ok r → Small r)
    (hlm : ∀ (n : Nat) (r : List F), r.length ≤ c.sys.expressions.length → (∀ y ∈ r, Small y) →
      FloatOps.ltB (normSquared ((List.replicate n 0 ++ r).map (fun r => -r))) (ratio 1 (10 ^ 8)) = true)
    {ls : LeastSquares F} {fuel : Nat} {ord : HashOrder} (hord : ord.Ok) {opts : SolvingOptions} (hd : opts.decomposer = .recursiveAssembly) (hp : opts.perturb = false) {s' : System F}
    (hs : c.sys.solve (crateOptimize ls fuel) ord opts = .ok s') :
    s' = { c.sys with vars := s'.vars } ∧ s'.vars.length = c.sys.vars.length ∧
      ∀ (v : Nat) x, c.sys.vars[v]? = some x → s'.vars[v]? = some x ∨ s'.vars[v]? = some (c.sys.scale * (x * (1 / c.sys.scale))) := by
  have hr := h.crel.rel
  rw [System.solve, bind_eq_ok] at hs
  obtain ⟨st, h1, h2⟩ := hs
  cases h2
  rw [System.solveLoop] at h1
  have h3 : st.transformed = c.sys.scaledVariables ∧ Rewritten c.sys.vars c.sys.scaledVariables c.sys.scale st.vars := by
    refine foldlM_inv (fun t : SolveState F => t.transformed = c.sys.scaledVariables ∧ Rewritten c.sys.vars c.sys.scaledVariables c.sys.scale t.vars) _ _
      ⟨c.sys.vars, c.sys.scaledVariables, 42, []⟩ _ ⟨rfl, rfl, fun _ _ _ => .inl rfl⟩ (fun t ck t' hck ht h4 => ?_) h1
    have hcomp := mem_zipIdx_fst hck
    unfold solveComponent at h4
    split at h4
    · cases h4; exact ht
    simp only [bind_eq_ok, perturbFree, hp] at h4
    obtain ⟨free, -, st1, h5, h6⟩ := h4
    cases h5
    rw [hd] at h6
    simp only at h6
    rw [solveRecursive, bind_eq_ok] at h6
    obtain ⟨steps, h7, h8⟩ := h6
    refine foldlM_inv (fun t : SolveState F => t.transformed = c.sys.scaledVariables ∧ Rewritten c.sys.vars c.sys.scaledVariables c.sys.scale t.vars) _ _ _ _ ht
      (fun t1 step t2 hstep ht1 h9 => ?_) h8
    refine solveStep_stays h0 hsub hid hz hlm hr.apart (fun es hes => ?_) ht1.1 ht1.2 h9
    have h10 : step.constraints.Nodup :=
      (List.nodup_flatMap.1 (C49_constraints_once h hcomp (ord := fun tag => ord (ck.2 :: 1 :: tag)) (fun tag s => hord _ s) h7).1).1 step hstep
    refine length_le_of_lt (flatten_nodup_of_mapM hr h10 hes) (fun id hid => ?_)
    obtain ⟨n, -, h4⟩ := (mem_flatten_of_mapM hr hes id).1 hid
    exact h.equation_lt h4
  refine ⟨rfl, h3.2.1, fun v x hx => ?_⟩
  rw [← hx]
  exact h3.2.2 v _ (by rw [System.scaledVariables, List.getElem?_map, hx]; rfl)

/-- With plans, `solve` by recursive assembly returns where the optimiser returns its start. -/
theorem Reaches.assembly_returns {counter : Nat} {ops : List (Op F)} {c : Client F} (h : Reaches counter ops c) (hn : NeverJoins ((Store.empty F).run ops).arguments) {ord : HashOrder}
    (hord : ord.Ok) {L : Nat} (hplan : c.sys.Planned ord L) {Small : F → Prop} (h0 : Small 0)
    (hsub : ∀ x ∈ c.sys.scaledVariables, x - x = 0) (hid : ∀ x ∈ c.sys.scaledVariables, ∀ y ∈ c.sys.scaledVariables, (⟨0, 0, 0⟩ : Pose2D F).transformPoint x y = (x, y))
    (hz : ∀ e ∈ c.sys.scaledExpressions, ∀ r, e.calculateResidual (identityMap c.sys.scaledVariables) = .ok r → Small r)
    (hlm : ∀ (n : Nat) (r : List F), r.length ≤ c.sys.expressions.length → (∀ y ∈ r, Small y) →
      FloatOps.ltB (normSquared ((List.replicate n 0 ++ r).map (fun r => -r))) (ratio 1 (10 ^ 8)) = true)
    {S : Nat → Nat → Nat → Prop} {ls : LeastSquares F} (hls : ls.Sturdy S)
    (hS : ∀ m n k, m ≤ c.sys.expressions.length + 2 * L → n ≤ 3 * L + 2 * c.sys.elements.length → k ≤ 8 * m + n → S m n k)
    {fuel : Nat} {opts : SolvingOptions} (hd : opts.decomposer = .recursiveAssembly) (hp : opts.perturb = false) : ∃ s', c.sys.solve (crateOptimize ls fuel) ord opts = .ok s' := by
  have hr := h.crel.rel
  have hT : c.sys.scaledVariables.length = c.sys.vars.length := by simp [System.scaledVariables]
  have h1 := EndsIf.foldlM (E := False) (fun t : SolveState F => t.transformed = c.sys.scaledVariables ∧ Rewritten c.sys.vars c.sys.scaledVariables c.sys.scale t.vars)
    (solveComponent (crateOptimize ls fuel) ord opts c.sys c.sys.scale c.sys.scaledExpressions) c.sys.graph.components.zipIdx
    ⟨c.sys.vars, c.sys.scaledVariables, 42, []⟩ ⟨rfl, rfl, fun _ _ _ => .inl rfl⟩
    (fun t ck hck ht => by
      have hc := mem_zipIdx_fst hck
      unfold solveComponent
      split
      · exact .ok ht
      · rename_i hne
        obtain ⟨free, h1⟩ := h.freeVariables_ok hc
        have h2 : perturbFree opts free t = .ok t := by rw [perturbFree, hp]; rfl
        obtain ⟨steps, h4, h5⟩ := hplan ck hck (Finset.nonempty_iff_ne_empty.2 hne)
        rw [h1, ok_bind, h2, ok_bind, hd]
        simp only [solveRecursive]
        rw [System.recursivePlan] at h4
        rw [h4, ok_bind]
        have hord' : HashOrder.Ok (fun tag => ord (ck.2 :: 1 :: tag)) := fun tag s => hord _ s
        refine EndsIf.foldlM (fun t : SolveState F => t.transformed = c.sys.scaledVariables ∧ Rewritten c.sys.vars c.sys.scaledVariables c.sys.scale t.vars) _ steps t ht (fun t step hstep ht => ?_)
        have hfew : ∀ es, step.constraints.mapM c.sys.constraintExpressions = .ok es → es.flatten.length ≤ c.sys.expressions.length := by
          intro es hes
          have h10 : step.constraints.Nodup := (List.nodup_flatMap.1 (C49_constraints_once h hc hord' h4).1).1 step hstep
          refine length_le_of_lt (flatten_nodup_of_mapM hr h10 hes) (fun id hid => ?_)
          obtain ⟨n, -, h4⟩ := (mem_flatten_of_mapM hr hes id).1 hid
          exact h.equation_lt h4
        have hends := h.solveStep_ends (E := False) (optimize := crateOptimize ls fuel) (scale := c.sys.scale) hn hc hord' h4 hstep (h5 step hstep) (st := t)
          ⟨ht.2.1, by rw [ht.1]; exact hT⟩ (fun cs values pattern hb h6 h7 h8 h9 h10 => by
            refine .inl ⟨values, lm_stays h6 (ClusteredSystem.problem_consistent _ _ _ _) hls (hS _ _ _ h7 h8 (by omega)) h10 (fun r hr' => ?_), h10⟩
            have hcs : cs.expressions.length ≤ c.sys.expressions.length := by
              obtain ⟨es, h8, h9⟩ := build_expressions hb
              rw [h9]
              exact hfew es h8
            rw [ht.1] at hb hr'
            obtain ⟨l, rfl, h9, h10⟩ := (clustered_residuals_settled h0 hsub hid hz (build_atRest hr.apart hb) hr').split
            exact hlm _ l (by omega) h10)
        rcases hends with ⟨t', h6, -⟩ | ⟨hf, -⟩
        · exact .inl ⟨t', h6, solveStep_stays h0 hsub hid hz hlm hr.apart hfew ht.1 ht.2 h6⟩
        · exact hf.elim)
  rcases h1 with ⟨st, h2, -⟩ | ⟨hf, -⟩
  · exact ⟨_, by rw [System.solve, System.solveLoop, h2]; rfl⟩
  · exact hf.elim

end Fiksi
