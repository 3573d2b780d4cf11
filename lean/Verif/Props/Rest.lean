import Verif.Props.Scaling
import Verif.Props.Lm
import Verif.Props.SolvePanic
/-!
# C61: a figure that satisfies its constraints is left alone
-/
namespace Fiksi

set_option linter.unusedSectionVars false
variable {F : Type} [Add F] [Sub F] [Mul F] [Div F] [Neg F] [Zero F] [One F] [FloatOps F]
open Spec

/-- The problem computes the same residuals with and without the dense Jacobian. -/
def Problem.DenseConsistent (p : Problem F) : Prop :=
  ∀ x rs js, p.denseJacobian x (List.replicate p.numResiduals 0) (List.replicate (p.numResiduals * p.numVariables) 0) = .ok (rs, js) → p.residuals x = .ok rs

/-- The optimiser returns the start if all residuals vanish there. -/
def Optimize.KeepsSolutions (optimize : Optimize ℝ) : Prop := ∀ (o : Optimizer) (p : Problem ℝ) (x x' : List ℝ), p.Consistent → (o = .lBfgs → p.DenseConsistent) →
  optimize o p x = .ok x' → (∀ r, p.residuals x = .ok r → ∀ y ∈ r, y = 0) → x' = x

/-! ## The optimisers of the crate -/

/-- C61 for Levenberg–Marquardt: where the sum of squared residuals is below `1e-8`, it returns the start. -/
theorem C61_lm_rests {p : Problem ℝ} (hp : p.Consistent) {ls : LeastSquares ℝ} {fuel : Nat} {x x' : List ℝ} (h : levenbergMarquardt p ls fuel x = .ok x')
    (hr : ∀ r, p.residuals x = .ok r → (r.map (fun y => y * y)).sum < 1 / 10 ^ 8) : x' = x := by
  rw [levenbergMarquardt, bind_eq_ok] at h
  obtain ⟨st, h1, h2⟩ := h
  cases h2
  rw [lmRun, bind_eq_ok] at h1
  obtain ⟨⟨st0, sym⟩, h1, h2⟩ := h1
  rw [lmStart, bind_eq_ok] at h1
  obtain ⟨rt, h3, h1⟩ := h1
  rw [bind_eq_ok] at h1
  obtain ⟨sym', -, h1⟩ := h1
  cases h1
  rw [lmJacobian, bind_eq_ok] at h3
  obtain ⟨⟨rs, ts⟩, h4, h3⟩ := h3
  cases h3
  have h5 := hr rs (hp x rs ts h4)
  simp only at h2
  rw [lmOuter, if_pos] at h2
  · cases h2
    rfl
  · simp only [FloatOps.ltB, decide_eq_true_eq, normSquared_real, List.map_map, ratio, FloatOps.ofNat]
    have : ((fun x : ℝ => x * x) ∘ fun r => -r) = fun y => y * y := by funext y; simp
    rw [this]
    norm_num at h5 ⊢
    exact h5

/-- C61 for L-BFGS: where the sum of squared residuals is below `1e-4`, it returns the start. -/
theorem C61_lbfgs_rests {p : Problem ℝ} (hp : p.DenseConsistent) {fuel : Nat} {x x' : List ℝ} (h : lbfgs p fuel x = .ok x')
    (hr : ∀ r, p.residuals x = .ok r → (r.map (fun y => y * y)).sum < 1 / 10 ^ 4) : x' = x := by
  rw [lbfgs, bind_eq_ok] at h
  obtain ⟨st, h1, h2⟩ := h
  rw [lbfgsStart, bind_eq_ok] at h1
  obtain ⟨⟨rs, js⟩, h3, h1⟩ := h1
  have h5 := hr rs (hp x rs js h3)
  rw [if_pos] at h1
  · cases h1
    cases h2
    rfl
  · simp only [FloatOps.ltB, decide_eq_true_eq, sumSquares_real, ratio, FloatOps.ofNat]
    have : (fun v : ℝ => v ^ 2) = fun y => y * y := by funext y; ring
    rw [this]
    norm_num at h5 ⊢
    exact h5

theorem sum_squares_of_zero {r : List ℝ} (h : ∀ y ∈ r, y = 0) : (r.map (fun y => y * y)).sum = 0 := by
  apply List.sum_eq_zero
  intro x hx
  obtain ⟨y, hy, rfl⟩ := List.mem_map.1 hx
  rw [h y hy, mul_zero]

theorem crateOptimize_keeps (ls : LeastSquares ℝ) (fuel : Nat) : (crateOptimize ls fuel).KeepsSolutions := by
  intro o p x x' hp hd h hr
  cases o with
  | levenbergMarquardt => exact C61_lm_rests hp h fun r h1 => by rw [sum_squares_of_zero (hr r h1)]; norm_num
  | lBfgs => exact C61_lbfgs_rests (hd rfl) h fun r h1 => by rw [sum_squares_of_zero (hr r h1)]; norm_num

/-! ## Subproblems at the current values -/

theorem mapM_mono {α β : Type} {f g : α → R β} (h : ∀ a b, f a = .ok b → g a = .ok b) : ∀ {l : List α} {r : List β}, l.mapM f = .ok r → l.mapM g = .ok r := by
  intro l
  induction l with
  | nil => intro r hr; exact hr
  | cons a l ih =>
    intro r hr
    rw [List.mapM_cons, bind_eq_ok] at hr
    obtain ⟨b, h1, hr⟩ := hr
    rw [bind_eq_ok] at hr
    obtain ⟨bs, h2, hr⟩ := hr
    rw [List.mapM_cons, h a b h1, ok_bind, ih h2, ok_bind]
    exact hr

theorem calculateResidual_mono {get : Nat → R (Variable F)} {T : List F} (h : ∀ v var, get v = .ok var → T[v]? = some var.value) {e : Expr F} {r : F}
    (hr : e.calculateResidual get = .ok r) : e.calculateResidual (identityMap T) = .ok r := by
  rw [Expr.calculateResidual, bind_eq_ok] at hr ⊢
  obtain ⟨vs, h1, h2⟩ := hr
  refine ⟨vs, mapM_mono (fun v x hx => ?_) h1, h2⟩
  rw [bind_eq_ok] at hx ⊢
  obtain ⟨var, h3, h4⟩ := hx
  cases h4
  refine ⟨.free var.value v, ?_, rfl⟩
  rw [identityMap, idx_of (h v var h3)]
  rfl

theorem mapM_idx {T values : List F} {free : List Nat} (h : free.mapM (idx T) = .ok values) {k v : Nat} (hk : free[k]? = some v) :
    ∃ x, values[k]? = some x ∧ T[v]? = some x := by
  have h1 := mapM_forall h
  have hl := h1.length_eq
  have hlt := (List.getElem?_eq_some_iff.1 hk).1
  refine ⟨values[k], List.getElem?_eq_getElem (by omega), ?_⟩
  have h2 := h1.get hlt (by omega)
  simp only [List.get_eq_getElem] at h2
  rw [idx_eq_ok] at h2
  rw [(List.getElem?_eq_some_iff.1 hk).2] at h2
  exact h2

theorem subsystem_value {T values : List F} {exprs : List (Expr F)} {es free : List Nat} (h : free.mapM (idx T) = .ok values) {v : Nat} {var : Variable F}
    (hv : (⟨T, exprs, es, free⟩ : Subsystem F).getValue values v = .ok var) : T[v]? = some var.value := by
  unfold Subsystem.getValue at hv
  split at hv
  · rename_i k hk
    rw [bind_eq_ok] at hv
    obtain ⟨x, h1, h2⟩ := hv
    cases h2
    obtain ⟨hlt, h3, -⟩ := List.idxOf?_eq_some_iff.1 hk
    obtain ⟨x', h4, h5⟩ := mapM_idx h (k := k) (v := v) (by rw [List.getElem?_eq_getElem hlt, h3])
    rw [idx_eq_ok, h4] at h1
    cases h1
    exact h5
  · rw [bind_eq_ok] at hv
    obtain ⟨x, h1, h2⟩ := hv
    cases h2
    rw [idx_eq_ok] at h1
    exact h1

theorem dense_residuals {sub : Subsystem F} {u : List F} : ∀ (ids : List Nat) (k : Nat) (rs js rs' js' : List F), rs.length = k + ids.length →
    (ids.zipIdx k).foldlM (sub.denseRow u) (rs, js) = .ok (rs', js') →
    ∃ l, ids.mapM (fun expressionId => do
      let e ← idx sub.allExpressions expressionId
      e.calculateResidual (sub.getValue u)) = .ok l ∧ rs' = rs.take k ++ l := by
  intro ids
  induction ids with
  | nil =>
    intro k rs js rs' js' hlen h
    cases h
    exact ⟨[], rfl, by rw [List.append_nil, List.take_of_length_le (by simpa using hlen.le)]⟩
  | cons id ids ih =>
    intro k rs js rs' js' hlen h
    rw [List.length_cons] at hlen
    rw [List.zipIdx_cons, List.foldlM_cons, bind_eq_ok] at h
    obtain ⟨⟨rs1, js1⟩, h1, h2⟩ := h
    rw [Subsystem.denseRow, bind_eq_ok] at h1
    obtain ⟨e, h3, h1⟩ := h1
    split at h1
    · cases h1
    rw [bind_eq_ok] at h1
    obtain ⟨⟨r, g⟩, h4, h1⟩ := h1
    rw [bind_eq_ok] at h1
    obtain ⟨rs2, h6, h1⟩ := h1
    cases h1
    rw [Expr.calculateResidualAndGradient, bind_eq_ok] at h4
    obtain ⟨vs, h4, h7⟩ := h4
    rw [bind_eq_ok] at h7
    obtain ⟨rg, h5, h7⟩ := h7
    rw [bind_eq_ok] at h7
    obtain ⟨gr, -, h7⟩ := h7
    cases h7
    rw [setIdx_eq_ok] at h6
    obtain ⟨h6, rfl⟩ := h6
    obtain ⟨l, h7, h8⟩ := ih (k + 1) _ _ rs' js' (by simp only [List.length_set]; omega) h2
    refine ⟨rg.1 :: l, ?_, ?_⟩
    · rw [List.mapM_cons, h3, ok_bind, Expr.calculateResidual, mapM_value h4, ok_bind, h5, ok_bind, pure_eq_ok, ok_bind, h7]
      rfl
    · rw [h8, List.take_add_one, List.getElem?_set_self h6, List.take_set_of_le (Nat.le_refl k)]
      simp

theorem Subsystem.problem_denseConsistent (sub : Subsystem F) : sub.problem.DenseConsistent := by
  intro x rs ts h
  obtain ⟨l, h1, h2⟩ := dense_residuals sub.expressions 0 _ _ _ _ (by simp [Subsystem.problem]) h
  rw [h2]
  exact h1

/-! ## Writing back the same values -/

theorem set_same {α : Type} {l : List α} {i : Nat} {a : α} (h : l[i]? = some a) : l.set i a = l := by
  obtain ⟨h1, h2⟩ := List.getElem?_eq_some_iff.1 h
  rw [← h2]
  exact List.set_getElem_self h1

theorem writeTransformed_same {T values T' : List F} {l : List (Nat × Nat)} (hl : ∀ p ∈ l, ∃ x, values[p.2]? = some x ∧ T[p.1]? = some x)
    (h : l.foldlM (writeTransformed values) T = .ok T') : T' = T := by
  refine foldlM_inv (fun t => t = T) _ _ _ _ rfl (fun t p t' hp ht h1 => ?_) h
  subst ht
  rw [writeTransformed, bind_eq_ok] at h1
  obtain ⟨x, h2, h3⟩ := h1
  obtain ⟨x', h4, h5⟩ := hl p hp
  rw [idx_eq_ok, h4] at h2
  cases h2
  rw [setIdx_eq_ok] at h3
  rw [← h3.2]
  exact set_same h5

theorem writeVars_same {V T values V' : List ℝ} {scale : ℝ} {l : List (Nat × Nat)} (hl : ∀ p ∈ l, ∃ x, values[p.2]? = some x ∧ T[p.1]? = some x)
    (hV : ∀ (v : Nat) (x : ℝ), T[v]? = some x → V[v]? = some (scale * x))
    (h : l.foldlM (writeVars scale values) V = .ok V') : V' = V := by
  refine foldlM_inv (fun t => t = V) _ _ _ _ rfl (fun t p t' hp ht h1 => ?_) h
  subst ht
  rw [writeVars, bind_eq_ok] at h1
  obtain ⟨x, h2, h3⟩ := h1
  obtain ⟨x', h4, h5⟩ := hl p hp
  rw [idx_eq_ok, h4] at h2
  cases h2
  rw [setIdx_eq_ok] at h3
  rw [← h3.2]
  exact set_same (hV _ _ h5)

theorem zipIdx_values {T values : List F} {free : List Nat} (h : free.mapM (idx T) = .ok values) : ∀ p ∈ free.zipIdx, ∃ x, values[p.2]? = some x ∧ T[p.1]? = some x := by
  intro p hp
  rw [List.mem_zipIdx_iff_getElem?] at hp
  exact mapM_idx h hp

/-! ## The solvers -/

section
variable {optimize : Optimize ℝ} (hk : optimize.KeepsSolutions) {T V : List ℝ} {scale : ℝ} (hV : ∀ (v : Nat) (x : ℝ), T[v]? = some x → V[v]? = some (scale * x))
  {exprs : List (Expr ℝ)} (hz : ∀ e ∈ exprs, ∀ r, e.calculateResidual (identityMap T) = .ok r → r = 0)
include hk hV hz

theorem subsystem_rests {o : Optimizer} {es free : List Nat} {values values' : List ℝ} (h : free.mapM (idx T) = .ok values)
    (ho : optimize o (⟨T, exprs, es, free⟩ : Subsystem ℝ).problem values = .ok values') : values' = values := by
  refine hk o _ _ _ (Subsystem.problem_consistent _) (fun _ => Subsystem.problem_denseConsistent _) ho fun r hr y hy => ?_
  obtain ⟨i, -, hi⟩ := forall₂_mem_right (mapM_forall hr) hy
  rw [bind_eq_ok] at hi
  obtain ⟨e, h1, h2⟩ := hi
  rw [idx_eq_ok] at h1
  exact hz e (List.mem_of_getElem? h1) y (calculateResidual_mono (fun v var hv => subsystem_value h hv) h2)

theorem solveWhole_rests {opts : SolvingOptions} {s : System ℝ} {constraints free : Finset Nat} {st st' : SolveState ℝ} (h1 : st.vars = V) (h2 : st.transformed = T)
    (h : solveWhole optimize opts s scale exprs constraints free st = .ok st') : st'.vars = V ∧ st'.transformed = T := by
  subst h1 h2
  simp only [solveWhole, bind_eq_ok] at h
  obtain ⟨values, h3, es, -, values', h4, vars, h5, h6⟩ := h
  cases h6
  rw [subsystem_rests hk hV hz h3 h4] at h5
  exact ⟨writeVars_same (zipIdx_values h3) hV h5, rfl⟩

theorem solveBlock_rests {opts : SolvingOptions} {freeList expressions : List Nat} {st st' : SolveState ℝ} (h1 : st.vars = V) (h2 : st.transformed = T)
    (h : solveBlock optimize opts scale exprs freeList expressions st = .ok st') : st'.vars = V ∧ st'.transformed = T := by
  subst h1 h2
  simp only [solveBlock, bind_eq_ok] at h
  obtain ⟨values, h3, values', h4, tr, h5, vars, h6, h7⟩ := h
  cases h7
  have h8 := subsystem_rests hk hV hz h3 h4
  subst h8
  exact ⟨writeVars_same (zipIdx_values h3) hV h6, writeTransformed_same (zipIdx_values h3) h5⟩

end

theorem poseAt_zero {values : List F} {n k : Nat} (h : ∀ j < 3 * n, values[j]? = some 0) (hk : k < n) {pose : Pose2D F} (hp : poseAt values k = .ok pose) : pose = ⟨0, 0, 0⟩ := by
  simp only [poseAt, bind_eq_ok, idx_eq_ok] at hp
  obtain ⟨a, h1, b, h2, c, h3, h4⟩ := hp
  rw [h _ (by omega)] at h1 h2 h3
  cases h1; cases h2; cases h3; cases h4
  rfl

theorem transformPoint_zero (x y : ℝ) : (⟨0, 0, 0⟩ : Pose2D ℝ).transformPoint x y = (x, y) := by
  simp [Pose2D.transformPoint, FloatOps.sin, FloatOps.cos]

/-- The points and lengths of a list of elements do not share variables (as far as `build` needs it). -/
def Apart (elements : List EncodedElement) : Prop := ∀ k, .point k ∈ elements → .length k ∉ elements ∧ .point (k + 1) ∉ elements

/-- What `build` returns at the values `T`. -/
structure AtRest (elements : List EncodedElement) (T : List F) (n : Nat) (mapping : IMap Nat Nat) (values : List F) : Prop where
  poses : ∀ j < n, values[j]? = some 0
  value : ∀ p ∈ mapping, ∃ x, values[p.2]? = some x ∧ T[p.1]? = some x
  second : ∀ p ∈ mapping, .point p.1 ∈ elements → ∃ y, values[p.2 + 1]? = some y ∧ T[p.1 + 1]? = some y

theorem getElem?_grow {α : Type} {l m : List α} {i : Nat} {a : α} (h : l[i]? = some a) : (l ++ m)[i]? = some a := by
  rw [List.getElem?_append_left (List.getElem?_eq_some_iff.1 h).1]
  exact h

theorem AtRest.grow {elements : List EncodedElement} {T : List F} {n : Nat} {mapping : IMap Nat Nat} {values : List F} (h : AtRest elements T n mapping values) (l : List F) :
    AtRest elements T n mapping (values ++ l) :=
  ⟨fun j hj => getElem?_grow (h.poses j hj), fun p hp => (h.value p hp).imp fun _ hx => ⟨getElem?_grow hx.1, hx.2⟩,
    fun p hp he => (h.second p hp he).imp fun _ hx => ⟨getElem?_grow hx.1, hx.2⟩⟩

theorem AtRest.insert {elements : List EncodedElement} {T : List F} {n : Nat} {mapping : IMap Nat Nat} {values : List F} (h : AtRest elements T n mapping values) {k u : Nat}
    (h1 : ∃ x, values[u]? = some x ∧ T[k]? = some x) (h2 : .point k ∈ elements → ∃ y, values[u + 1]? = some y ∧ T[k + 1]? = some y) :
    AtRest elements T n (mapping.insert k u) values := by
  refine ⟨h.poses, fun p hp => ?_, fun p hp he => ?_⟩
  · rcases IMap.mem_insert hp with hp | rfl
    · exact h.value p hp
    · exact h1
  · rcases IMap.mem_insert hp with hp | rfl
    · exact h.second p hp he
    · exact h2 he

theorem addElementVariables_atRest {elements : List EncodedElement} (ha : Apart elements) {T : List F} {n : Nat} {st st' : IMap Nat Nat × List F} {i : Nat}
    (hi : AtRest elements T n st.1 st.2) (h : addElementVariables elements T st i = .ok st') : AtRest elements T n st'.1 st'.2 := by
  rw [addElementVariables, bind_eq_ok] at h
  obtain ⟨el, h4, h3⟩ := h
  rw [idx_eq_ok] at h4
  have hmem := List.mem_of_getElem? h4
  cases el with
  | length k =>
    simp only [bind_eq_ok, idx_eq_ok] at h3
    obtain ⟨x, h5, h3⟩ := h3
    cases h3
    exact (hi.grow _).insert ⟨x, by simp, h5⟩ fun hc => absurd hmem (ha k hc).1
  | point k =>
    simp only [bind_eq_ok, idx_eq_ok] at h3
    obtain ⟨x, h5, y, h6, h3⟩ := h3
    cases h3
    have hy : (st.2 ++ [x, y])[st.2.length + 1]? = some y := by rw [List.getElem?_append_right (by omega)]; simp
    exact ((hi.grow _).insert ⟨x, by simp, h5⟩ fun _ => ⟨y, hy, h6⟩).insert ⟨y, hy, h6⟩ fun hc => absurd hc (ha k hmem).2
  | line a b => cases h3; exact hi
  | circle a b => cases h3; exact hi

theorem build_atRest {s : System F} (ha : Apart s.elements) {T : List F} {step : RecombinationStep} {cs : ClusteredSystem} {values : List F}
    (h : ClusteredSystem.build s T step = .ok (cs, values)) : AtRest s.elements T (3 * cs.clusters.length) cs.mapping values := by
  simp only [ClusteredSystem.build, bind_eq_ok] at h
  obtain ⟨es, -, reach, -, elements, -, ⟨clusters, np⟩, -, ⟨mapping, vs⟩, h2, h⟩ := h
  cases h
  refine foldlM_inv (fun st : IMap Nat Nat × List F => AtRest s.elements T (3 * clusters.length) st.1 st.2) _ _ _ _ ⟨fun j hj => ?_, by simp, by simp⟩
    (fun st i st' _ hst h3 => addElementVariables_atRest ha hst h3) h2
  have : j < 3 * clusters.length := hj
  rw [List.getElem?_replicate, if_pos (show j < clusters.length * 3 by omega)]

theorem setIdx_zero {l l' : List ℝ} {i : Nat} {x : ℝ} (hl : ∀ y ∈ l, y = 0) (hx : x = 0) (h : setIdx l i x = .ok l') : ∀ y ∈ l', y = 0 := by
  rw [setIdx_eq_ok] at h
  rw [← h.2]
  intro y hy
  rcases List.mem_or_eq_of_mem_set hy with hy | rfl
  · exact hl y hy
  · exact hx

/-- At the current values, all residuals of the clustered system vanish. -/
theorem clustered_residuals_zero {s : System ℝ} {T values : List ℝ} {exprs : List (Expr ℝ)} (hz : ∀ e ∈ exprs, ∀ r, e.calculateResidual (identityMap T) = .ok r → r = 0)
    {cs : ClusteredSystem} (hr : AtRest s.elements T (3 * cs.clusters.length) cs.mapping values) {r : List ℝ} (h : cs.calculateResiduals s exprs T values = .ok r) : ∀ y ∈ r, y = 0 := by
  rw [ClusteredSystem.calculateResiduals, bind_eq_ok] at h
  obtain ⟨r1, h1, h⟩ := h
  rw [bind_eq_ok] at h
  obtain ⟨⟨k, r2⟩, h2, h⟩ := h
  cases h
  have hz1 : ∀ y ∈ r1, y = 0 := by
    refine foldlM_inv (fun l : List ℝ => ∀ y ∈ l, y = 0) _ _ _ _ (fun y hy => (List.mem_replicate.1 hy).2) (fun l ei l' _ hl h3 => ?_) h1
    simp only [bind_eq_ok] at h3
    obtain ⟨e, h4, vars, h5, rg, h6, h7⟩ := h3
    rw [idx_eq_ok] at h4
    refine setIdx_zero hl (hz e (List.mem_of_getElem? h4) rg.1 (calculateResidual_mono (get := cs.variable values) (fun v var hv => ?_) ?_)) h7
    · simp only [ClusteredSystem.variable, bind_eq_ok, unwrap_eq_ok, idx_eq_ok] at hv
      obtain ⟨u, h8, x, h9, h10⟩ := hv
      cases h10
      obtain ⟨x', h11, h12⟩ := hr.value _ (IMap.mem_of_get? h8)
      rw [h9] at h11
      cases h11
      exact h12
    · rw [Expr.calculateResidual, mapM_value h5, ok_bind, h6]
      rfl
  refine foldlM_inv (fun st : Nat × List ℝ => ∀ y ∈ st.2, y = 0) _ _ _ _ hz1 (fun st ck st' hck hst h3 => ?_) h2
  rw [bind_eq_ok] at h3
  obtain ⟨pose, h4, h3⟩ := h3
  have hlt : ck.2 < cs.clusters.length := by
    obtain ⟨a, i⟩ := ck
    exact (List.getElem?_eq_some_iff.1 (List.mem_zipIdx_iff_getElem?.1 hck)).1
  have hpose := poseAt_zero hr.poses hlt h4
  subst hpose
  refine foldlM_inv (fun st : Nat × List ℝ => ∀ y ∈ st.2, y = 0) _ _ _ _ hst (fun st pt st' _ hst h5 => ?_) h3
  rw [bind_eq_ok] at h5
  obtain ⟨⟨⟨x, y⟩, u, x', y'⟩, h6, h5⟩ := h5
  simp only [transformPoint_zero, bind_eq_ok] at h5
  obtain ⟨l1, h7, l2, h8, h9⟩ := h5
  cases h9
  rw [ClusteredSystem.pointTerm, bind_eq_ok] at h6
  obtain ⟨el, h10, h6⟩ := h6
  rw [idx_eq_ok] at h10
  have hxy : x = x' ∧ y = y' := by
    cases el with
    | point i =>
      simp only [bind_eq_ok, unwrap_eq_ok, idx_eq_ok] at h6
      obtain ⟨a, h11, b, h12, v, h13, a', h14, b', h15, h16⟩ := h6
      cases h16
      obtain ⟨q, h17, h18⟩ := hr.value _ (IMap.mem_of_get? h13)
      obtain ⟨q', h19, h20⟩ := hr.second _ (IMap.mem_of_get? h13) (List.mem_of_getElem? h10)
      rw [h14] at h17; rw [h15] at h19; rw [h11] at h18; rw [h12] at h20
      cases h17; cases h18; cases h19; cases h20
      exact ⟨rfl, rfl⟩
    | length _ => cases h6
    | line _ _ => cases h6
    | circle _ _ => cases h6
  exact setIdx_zero (setIdx_zero hst (by rw [hxy.1, sub_self]) h7) (by rw [hxy.2, sub_self]) h8

section
variable {T V : List ℝ} {scale : ℝ} (hV : ∀ (v : Nat) (x : ℝ), T[v]? = some x → V[v]? = some (scale * x))
include hV

theorem moveElement_rests {s : System ℝ} {elements : List Nat} {st st' : SolveState ℝ} {i : Nat} (h1 : st.vars = V) (h2 : st.transformed = T)
    (h : moveElement s scale elements ⟨0, 0, 0⟩ st i = .ok st') : st'.vars = V ∧ st'.transformed = T := by
  subst h1 h2
  unfold moveElement at h
  split at h
  · cases h; exact ⟨rfl, rfl⟩
  rw [bind_eq_ok] at h
  obtain ⟨el, -, h⟩ := h
  cases el with
  | point k =>
    simp only [bind_eq_ok, transformPoint_zero, idx_eq_ok, setIdx_eq_ok] at h
    obtain ⟨x, hx, y, hy, t1, ⟨-, rfl⟩, t2, ⟨-, rfl⟩, v1, ⟨-, rfl⟩, v2, ⟨-, rfl⟩, h⟩ := h
    cases h
    simp only [set_same hx, set_same hy, set_same (hV _ _ hx), set_same (hV _ _ hy), and_self]
  | length _ => cases h; exact ⟨rfl, rfl⟩
  | line _ _ => cases h; exact ⟨rfl, rfl⟩
  | circle _ _ => cases h; exact ⟨rfl, rfl⟩

variable {optimize : Optimize ℝ} (hk : optimize.KeepsSolutions)
  {exprs : List (Expr ℝ)} (hz : ∀ e ∈ exprs, ∀ r, e.calculateResidual (identityMap T) = .ok r → r = 0)
include hk hz

theorem solveStep_rests {s : System ℝ} (ha : Apart s.elements) {step : RecombinationStep} {st st' : SolveState ℝ} (h1 : st.vars = V) (h2 : st.transformed = T)
    (h : solveStep optimize s scale exprs st step = .ok st') : st'.vars = V ∧ st'.transformed = T := by
  subst h1 h2
  rw [solveStep, bind_eq_ok] at h
  obtain ⟨⟨cs, values⟩, h3, h⟩ := h
  simp only [bind_eq_ok] at h
  obtain ⟨values', h4, tr, h5, vars, h6, h7⟩ := h
  have hr := build_atRest ha h3
  have h8 := hk _ _ _ _ (ClusteredSystem.problem_consistent _ _ _ _) (fun hc => by cases hc) h4 (fun r hr' => clustered_residuals_zero hz hr hr')
  subst h8
  have ht := writeTransformed_same hr.value h5
  have hv := writeVars_same hr.value hV h6
  subst ht
  refine foldlM_inv (fun s' : SolveState ℝ => s'.vars = st.vars ∧ s'.transformed = st.transformed) _ _ ⟨vars, st.transformed, st.rng, st.calls ++ [cs.expressions]⟩ _ ⟨hv, rfl⟩ (fun s1 ck s2 hck h9 h10 => ?_) h7
  rw [bind_eq_ok] at h10
  obtain ⟨pose, h11, h10⟩ := h10
  have hlt : ck.2 < cs.clusters.length := by
    obtain ⟨a, i⟩ := ck
    have := (List.getElem?_eq_some_iff.1 (List.mem_zipIdx_iff_getElem?.1 hck)).1
    simpa [IMap.keys] using this
  have hpose := poseAt_zero hr.poses hlt h11
  subst hpose
  exact foldlM_inv (fun s' : SolveState ℝ => s'.vars = st.vars ∧ s'.transformed = st.transformed) _ _ _ _ h9
    (fun s3 i s4 _ h12 h13 => moveElement_rests hV h12.1 h12.2 h13) h10

theorem solveComponent_rests {ord : HashOrder} {opts : SolvingOptions} (hp : opts.perturb = false) {s : System ℝ} (ha : Apart s.elements) {ck : Component × Nat} {st st' : SolveState ℝ}
    (h1 : st.vars = V) (h2 : st.transformed = T) (h : solveComponent optimize ord opts s scale exprs st ck = .ok st') : st'.vars = V ∧ st'.transformed = T := by
  unfold solveComponent at h
  split at h
  · cases h; exact ⟨h1, h2⟩
  simp only [bind_eq_ok, perturbFree, hp] at h
  obtain ⟨free, -, st1, h3, h⟩ := h
  cases h3
  split at h
  · exact solveWhole_rests hk hV hz h1 h2 h
  · rw [solveSinglePass, bind_eq_ok] at h
    obtain ⟨blocks, -, h⟩ := h
    exact foldlM_inv (fun s' : SolveState ℝ => s'.vars = V ∧ s'.transformed = T) _ _ _ _ ⟨h1, h2⟩
      (fun s3 i s4 _ h12 h13 => solveBlock_rests hk hV hz h12.1 h12.2 h13) h
  · rw [solveRecursive, bind_eq_ok] at h
    obtain ⟨steps, -, h⟩ := h
    exact foldlM_inv (fun s' : SolveState ℝ => s'.vars = V ∧ s'.transformed = T) _ _ _ _ ⟨h1, h2⟩
      (fun s3 i s4 _ h12 h13 => solveStep_rests hV hk hz ha h12.1 h12.2 h13) h

end

/-! ## Whole systems -/

theorem Rel.apart {s : System F} {st : Store F} (hr : Rel s st) : Apart s.elements := by
  have own : ∀ {i : Nat} {el : EncodedElement}, s.elements[i]? = some el → (∃ k, el = .point k ∨ el = .length k) → ∀ v ∈ el.variableIndices, s.variableToPrimitive[v]? = some i := by
    intro i el hel hk v hv
    obtain ⟨p, h1, h2⟩ := hr.owner_of_var hel hv
    have hi : i < st.elems.length := by rw [← hr.elements_length]; exact lt_of_getElem? hel
    obtain ⟨e, he⟩ : ∃ e, st.elems[i]? = some e := ⟨_, List.getElem?_eq_getElem hi⟩
    rw [hr.element_at he] at hel
    cases hel
    rw [Store.primitives, he] at h1
    obtain ⟨k, hk | hk⟩ := hk <;> cases e <;> simp_all [encElem]
  intro k hk
  obtain ⟨i, hi⟩ := List.mem_iff_getElem?.1 hk
  refine ⟨fun hl => ?_, fun hl => ?_⟩ <;>
  · obtain ⟨j, hj⟩ := List.mem_iff_getElem?.1 hl
    have h1 := own hi ⟨_, .inl rfl⟩
    first
    | have h2 := own hj ⟨_, .inr rfl⟩ k (by simp [EncodedElement.variableIndices])
      rw [h1 k (by simp [EncodedElement.variableIndices])] at h2
      cases h2
      rw [hi] at hj
      cases hj
    | have h2 := own hj ⟨_, .inl rfl⟩ (k + 1) (by simp [EncodedElement.variableIndices])
      rw [h1 (k + 1) (by simp [EncodedElement.variableIndices])] at h2
      cases h2
      rw [hi] at hj
      simp at hj

theorem expressions_zero {s : System ℝ} {st : Store ℝ} (hr : Rel s st) (hz : ∀ i con, st.cons[i]? = some con → s.residualOf con.kind.valency i = .ok 0) :
    ∀ e ∈ s.expressions, e.calculateResidual (identityMap s.vars) = .ok 0 := by
  intro e he
  rw [hr.exprs, List.mem_flatMap] at he
  obtain ⟨con, hcon, he⟩ := he
  obtain ⟨i, hi⟩ := List.mem_iff_getElem?.1 hcon
  obtain ⟨j, hj⟩ := List.mem_iff_getElem?.1 he
  have hjl : j < (encCon st.elems con).length := (List.getElem?_eq_some_iff.1 hj).1
  have hex := hr.expression_at hi (j := j) hjl
  rw [hj] at hex
  have h0 := hz i con hi
  rw [System.residualOf, bind_eq_ok] at h0
  obtain ⟨c, h1, h0⟩ := h0
  rw [idx_eq_ok, hr.constraint_at hi] at h1
  cases h1
  rw [encCon_length] at hjl
  split at h0
  · rw [bind_eq_ok] at h0
    obtain ⟨rs, h2, h0⟩ := h0
    simp only [pure_eq_ok, Except.ok.injEq] at h0
    obtain ⟨r, h3, h4⟩ := forall₂_mem (mapM_forall h2) (List.mem_range.2 hjl)
    rw [bind_eq_ok] at h4
    obtain ⟨e', h5, h4⟩ := h4
    rw [idx_eq_ok, hex] at h5
    cases h5
    rw [h4]
    congr 1
    by_contra hne
    have h6 := sumSquares_pos h3 hne
    have h7 : √(sumSquares rs) = 0 := h0
    rw [Real.sqrt_eq_zero h6.le] at h7
    exact h6.ne' h7
  · have hj0 : j = 0 := by omega
    subst hj0
    rw [bind_eq_ok] at h0
    obtain ⟨e', h5, h4⟩ := h0
    rw [Nat.add_zero] at hex
    rw [idx_eq_ok, hex] at h5
    cases h5
    exact h4

/-- Some coordinate or length of the figure is not zero. -/
def Spec.Store.NonZero (st : Store ℝ) : Prop := ∃ e ∈ st.elems, (∃ x y, e = .point x y ∧ (x ≠ 0 ∨ y ≠ 0)) ∨ ∃ r, e = .length r ∧ r ≠ 0

/-- C61 (partial): if all constraints read a residual of zero, then `solve` without perturbation leaves every value as it is, for all decomposers, all iteration orders of the
hash sets and every optimiser that stops where the residuals vanish. (If all coordinates and lengths are zero, the scale is zero, see C15. Full statement: with any options; false with perturbation,
see `C61_default_moves`.) -/
theorem C61_satisfied_rests_partial {counter : Nat} {ops : List (Op ℝ)} {c : Client ℝ} (h : Reaches counter ops c) (hnz : ((Store.empty ℝ).run ops).NonZero)
    (hz : ∀ (i : Nat) hd con, c.conHandles[i]? = some hd → ((Store.empty ℝ).run ops).cons[i]? = some con → c.sys.calculateResidual con.kind hd = .ok 0)
    {optimize : Optimize ℝ} (hk : optimize.KeepsSolutions) {ord : HashOrder} {opts : SolvingOptions} (hp : opts.perturb = false) {s' : System ℝ}
    (hs : c.sys.solve optimize ord opts = .ok s') : s' = c.sys := by
  have hr := h.crel
  obtain ⟨st, h1, rfl⟩ := solve_eq hs
  have hvar : ∃ v ∈ c.sys.vars, v ≠ 0 := by
    rw [hr.rel.vars]
    obtain ⟨e, he, ⟨x, y, rfl, h0⟩ | ⟨x, rfl, h0⟩⟩ := hnz
    · rcases h0 with h0 | h0
      · exact ⟨x, List.mem_flatMap.2 ⟨_, he, by simp [elemValues]⟩, h0⟩
      · exact ⟨y, List.mem_flatMap.2 ⟨_, he, by simp [elemValues]⟩, h0⟩
    · exact ⟨x, List.mem_flatMap.2 ⟨_, he, by simp [elemValues]⟩, h0⟩
  obtain ⟨hpos, -⟩ := C15_system_scale c.sys (.inl hvar)
  have he := expressions_zero hr.rel (fun i con hi => by
    have := hz i _ con (hr.conHandle (lt_of_getElem? hi)) hi
    rw [System.calculateResidual, if_neg (by simp)] at this
    exact this)
  have hz' : ∀ e ∈ c.sys.scaledExpressions, ∀ r, e.calculateResidual (identityMap c.sys.scaledVariables) = .ok r → r = 0 := by
    intro e hmem r hres
    obtain ⟨e0, h2, rfl⟩ := List.mem_map.1 hmem
    have := (C15_rescaling (k := 1 / c.sys.scale) (by positivity) e0 c.sys.vars (he e0 h2)).1
    rw [System.scaledVariables, this] at hres
    cases hres
    rw [mul_zero]
  have hV : ∀ (v : Nat) (x : ℝ), c.sys.scaledVariables[v]? = some x → c.sys.vars[v]? = some (c.sys.scale * x) := by
    intro v x hx
    rw [System.scaledVariables, List.getElem?_map, Option.map_eq_some_iff] at hx
    obtain ⟨y, h2, rfl⟩ := hx
    rw [h2]
    congr 1
    field_simp
  have := foldlM_inv (fun s' : SolveState ℝ => s'.vars = c.sys.vars ∧ s'.transformed = c.sys.scaledVariables) _ _ _ _ ⟨rfl, rfl⟩
    (fun s3 i s4 _ h12 h13 => solveComponent_rests hV hk hz' hp hr.rel.apart h12.1 h12.2 h13) h1
  rw [this.1]

/-- C61 (partial) for the optimisers of the crate. -/
theorem C61_crate_satisfied_rests_partial {counter : Nat} {ops : List (Op ℝ)} {c : Client ℝ} (h : Reaches counter ops c) (hnz : ((Store.empty ℝ).run ops).NonZero)
    (hz : ∀ (i : Nat) hd con, c.conHandles[i]? = some hd → ((Store.empty ℝ).run ops).cons[i]? = some con → c.sys.calculateResidual con.kind hd = .ok 0)
    {ls : LeastSquares ℝ} {fuel : Nat} {ord : HashOrder} {opts : SolvingOptions} (hp : opts.perturb = false) {s' : System ℝ}
    (hs : c.sys.solve (crateOptimize ls fuel) ord opts = .ok s') : s' = c.sys :=
  C61_satisfied_rests_partial h hnz hz (crateOptimize_keeps ls fuel) hp hs

/-- C61 (partial) in terms of geometry: if every constraint holds in the plane (and is not degenerate), `solve` without perturbation leaves everything as it is. -/
theorem C61_holding_rests_partial {counter : Nat} {ops : List (Op ℝ)} {c : Client ℝ} (h : Reaches counter ops c) (hnz : ((Store.empty ℝ).run ops).NonZero)
    (hz : ∀ con ∈ ((Store.empty ℝ).run ops).cons, Geo.Regular ((Store.empty ℝ).run ops) con ∧ Geo.Holds ((Store.empty ℝ).run ops) con)
    {ls : LeastSquares ℝ} {fuel : Nat} {ord : HashOrder} {opts : SolvingOptions} (hp : opts.perturb = false) {s' : System ℝ}
    (hs : c.sys.solve (crateOptimize ls fuel) ord opts = .ok s') : s' = c.sys :=
  C61_crate_satisfied_rests_partial h hnz (fun i hd con h1 h2 => by
    obtain ⟨hreg, hh⟩ := hz con (List.mem_of_getElem? h2)
    obtain ⟨r, h3, h4⟩ := C12_zero_residual_iff_partial h h1 h2 hreg
    rw [h3, h4.2 hh]) hp hs

/-- The points `(0,0)` and `(3,4)` at distance 5. -/
noncomputable def restOps : List (Op ℝ) := [.createPoint 0 0, .createPoint 3 4, .createCon (.pointPointDistance 0 1 5)]

/-- A case for C61: two points at the required distance. -/
example : ∃ c, Reaches 0 restOps c ∧ ((Store.empty ℝ).run restOps).NonZero ∧
    ∀ con ∈ ((Store.empty ℝ).run restOps).cons, Geo.Regular ((Store.empty ℝ).run restOps) con ∧ Geo.Holds ((Store.empty ℝ).run restOps) con := by
  obtain ⟨c, h⟩ := exists_reaches 0 restOps (by simp [restOps, Store.LegalRun, Store.Legal, Store.empty, Store.step, Store.IsPoint, Store.ConOk]) (by simp [restOps])
  have hc : ((Store.empty ℝ).run restOps).cons = [.pointPointDistance 0 1 5] := rfl
  refine ⟨c, h, ⟨.point 3 4, by simp [restOps, Store.run, Store.empty, Store.step], .inl ⟨3, 4, rfl, .inl (by norm_num)⟩⟩, fun con hcon => ?_⟩
  rw [hc, List.mem_singleton] at hcon
  subst hcon
  refine ⟨trivial, ⟨0, 0⟩, ⟨3, 4⟩, rfl, rfl, ?_⟩
  rw [Complex.dist_eq_re_im]
  norm_num
  rw [show (25 : ℝ) = 5 ^ 2 by norm_num]
  exact Real.sqrt_sq (by norm_num)

/-- A case for C61: with the optimiser that returns its start, `solve` succeeds. -/
example : ∃ c s', Reaches 0 restOps c ∧ c.sys.solve (fun _ _ x => .ok x) ascendingOrder ⟨.levenbergMarquardt, .recursiveAssembly, false⟩ = .ok s' := by
  obtain ⟨c, h⟩ := exists_reaches 0 restOps (by simp [restOps, Store.LegalRun, Store.Legal, Store.empty, Store.step, Store.IsPoint, Store.ConOk]) (by simp [restOps])
  have key : ∃ s', (do let c ← (Client.new ℝ 0).run restOps; c.sys.solve (fun _ _ x => .ok x) ascendingOrder ⟨.levenbergMarquardt, .recursiveAssembly, false⟩) = .ok s' := ⟨_, rfl⟩
  rw [h.run] at key
  obtain ⟨s', h1⟩ := key
  exact ⟨c, s', h, h1⟩

end Fiksi
