import Verif.Proofs.SubsystemLine
/-!
# Objectives that are tame along every line
-/
namespace Fiksi

open Spec Complex Topology Filter

/-- `f` is continuous at `t`, and to the right of `t` it is an analytic function whose derivative is `f'`. -/
def Germ (f f' : ℝ → ℝ) (t : ℝ) : Prop :=
  ContinuousAt f t ∧ ∃ g, AnalyticAt ℝ g t ∧ g t = f t ∧ ∀ᶠ s in 𝓝[>] t, f s = g s ∧ f' s = deriv g s

section
variable {t : ℝ} {f f' g g' : ℝ → ℝ}

theorem eventually_right (h : AnalyticAt ℝ f t) : ∀ᶠ s in 𝓝[>] t, DifferentiableAt ℝ f s :=
  (h.eventually_analyticAt.mono (fun _ h => h.differentiableAt)).filter_mono nhdsWithin_le_nhds

theorem Germ.const (c : ℝ) : Germ (fun _ => c) (fun _ => 0) t :=
  ⟨continuousAt_const, fun _ => c, analyticAt_const, rfl, .of_forall (fun s => ⟨rfl, by simp⟩)⟩

theorem Germ.sub (hf : Germ f f' t) (hg : Germ g g' t) : Germ (fun s => f s - g s) (fun s => f' s - g' s) t := by
  obtain ⟨c1, u, a1, b1, e1⟩ := hf
  obtain ⟨c2, v, a2, b2, e2⟩ := hg
  refine ⟨c1.sub c2, fun s => u s - v s, a1.sub a2, by simp only [b1, b2], ?_⟩
  filter_upwards [e1, e2, eventually_right a1, eventually_right a2] with s h1 h2 h3 h4
  exact ⟨by rw [h1.1, h2.1], by rw [deriv_fun_sub h3 h4, h1.2, h2.2]⟩

theorem Germ.sum_sq {ι : Type} (S : Finset ι) {f f' : ι → ℝ → ℝ} (h : ∀ i ∈ S, Germ (f i) (f' i) t) :
    Germ (fun s => ∑ i ∈ S, f i s ^ 2) (fun s => 2 * ∑ i ∈ S, f i s * f' i s) t := by
  classical
  induction S using Finset.induction_on with
  | empty => simpa using Germ.const (t := t) 0
  | insert i S hi ih =>
    obtain ⟨c1, u, a1, b1, e1⟩ := h i (Finset.mem_insert_self _ _)
    obtain ⟨c2, v, a2, b2, e2⟩ := ih (fun i hi => h i (Finset.mem_insert_of_mem hi))
    simp only [Finset.sum_insert hi]
    refine ⟨(c1.pow 2).add c2, fun s => u s ^ 2 + v s, (a1.pow 2).add a2, by simp only [b1, b2], ?_⟩
    filter_upwards [e1, e2, eventually_right a1, eventually_right a2] with s h1 h2 h3 h4
    refine ⟨by rw [h1.1, h2.1], ?_⟩
    have h5 := (h3.hasDerivAt.pow 2).add h4.hasDerivAt
    have h6 : deriv (fun s => u s ^ 2 + v s) s = _ := h5.deriv
    rw [h6, ← h2.2, h1.1, h1.2]
    norm_num
    ring

theorem Germ.of_right {r : ℝ} (ht : t < r) (ha : AnalyticAt ℝ f t) (hd : ∀ s ∈ Set.Ioo t r, HasDerivAt f (f' s) s) : Germ f f' t := by
  refine ⟨ha.continuousAt, f, ha, rfl, ?_⟩
  filter_upwards [Ioo_mem_nhdsGT ht] with s hs
  exact ⟨rfl, (hd s hs).deriv.symm⟩

/-- Distances are so, also where the points meet. -/
theorem germ_dist (a b c d a' b' c' d' t : ℝ) :
    Germ (fun s => Real.sqrt (square (a + s * a' - (c + s * c')) + square (b + s * b' - (d + s * d'))))
      (fun s => ((a + s * a' - (c + s * c')) * (a' - c') + (b + s * b' - (d + s * d')) * (b' - d')) /
        Real.sqrt (square (a + s * a' - (c + s * c')) + square (b + s * b' - (d + s * d')))) t := by
  have hder : ∀ m k s : ℝ, HasDerivAt (fun s => m + s * k) k s := fun m k s => by
    simpa using ((hasDerivAt_id s).mul_const k).const_add m
  have hana : ∀ m k : ℝ, AnalyticAt ℝ (fun s => m + s * k) t := fun m k => analyticAt_const.add (analyticAt_id.mul analyticAt_const)
  refine ⟨by unfold square; fun_prop, ?_⟩
  by_cases h : (⟨a + t * a', b + t * b'⟩ : ℂ) = ⟨c + t * c', d + t * d'⟩
  · rw [Complex.mk.injEq] at h
    obtain ⟨h1, h2⟩ := h
    have e1 : ∀ s, a + s * a' - (c + s * c') = (s - t) * (a' - c') := fun s => by linear_combination h1
    have e2 : ∀ s, b + s * b' - (d + s * d') = (s - t) * (b' - d') := fun s => by linear_combination h2
    have e3 : ∀ s, square (a + s * a' - (c + s * c')) + square (b + s * b' - (d + s * d')) = (s - t) ^ 2 * ((a' - c') ^ 2 + (b' - d') ^ 2) := by
      intro s; rw [e1, e2]; unfold square; ring
    simp only [e3]
    simp only [e1, e2, Real.sqrt_mul (sq_nonneg _), Real.sqrt_sq_eq_abs]
    generalize hK : Real.sqrt ((a' - c') ^ 2 + (b' - d') ^ 2) = K
    have hK2 : K * K = (a' - c') ^ 2 + (b' - d') ^ 2 := by rw [← hK, Real.mul_self_sqrt (by positivity)]
    refine ⟨fun s => (s - t) * K, (analyticAt_id.sub analyticAt_const).mul analyticAt_const, by simp, ?_⟩
    filter_upwards [self_mem_nhdsWithin] with s hs
    have hs : t < s := hs
    rw [abs_of_pos (by linarith : 0 < s - t)]
    have hd : deriv (fun s => (s - t) * K) s = K := by
      have := (((hasDerivAt_id s).sub_const t).mul_const K).deriv
      simpa using this
    refine ⟨rfl, ?_⟩
    rw [hd]
    have hne : s - t ≠ 0 := by linarith
    by_cases hK0 : K = 0
    · rw [hK0]; simp
    · rw [div_eq_iff (mul_ne_zero hne hK0)]
      linear_combination (-(s - t)) * hK2
  · have h0 := analytic_dist (hana a a') (hana b b') (hana c c') (hana d d') h
    refine ⟨_, h0, rfl, ?_⟩
    have hne : ∀ᶠ s in 𝓝 t, (⟨a + s * a', b + s * b'⟩ : ℂ) ≠ ⟨c + s * c', d + s * d'⟩ :=
      ((analytic_mk (hana a a') (hana b b')).continuousAt.ne_iff_eventually_ne (analytic_mk (hana c c') (hana d d')).continuousAt).1 h
    filter_upwards [hne.filter_mono nhdsWithin_le_nhds] with s hs
    refine ⟨rfl, ?_⟩
    rw [(hasDerivAt_dist (hder a a' s) (hder b b' s) (hder c c' s) (hder d d' s) hs).deriv]
    ring

theorem Germ.congr (h : Germ f f' t) (h1 : ∀ s, g s = f s) (h2 : ∀ s, g' s = f' s) : Germ g g' t := by
  rw [funext h1, funext h2]; exact h

/-- One side of a point of a line. -/
theorem Germ.side {φ ψ : ℝ → ℝ} (h : Germ φ (fun s => 2 * ψ s) t) :
    ∃ s > t, (∀ u ∈ Set.Ioo t s, 0 ≤ ψ u) ∨ (∀ u ∈ Set.Ioo t s, φ u ≤ φ t) := by
  obtain ⟨-, g, ha, hgt, he⟩ := h
  have hev : ∀ {P : ℝ → Prop}, (∀ᶠ s in 𝓝[>] t, P s) → ∃ r > t, ∀ u ∈ Set.Ioo t r, P u := fun hP => by
    obtain ⟨r, hr, h⟩ := (mem_nhdsGT_iff_exists_Ioo_subset).1 hP
    exact ⟨r, hr, fun u hu => h hu⟩
  have hana := ha.eventually_analyticAt.filter_mono (nhdsWithin_le_nhds (s := Set.Ioi t))
  rcases ha.deriv.eventually_eq_zero_or_eventually_ne_zero with h0 | h0
  · obtain ⟨r, hr, h1⟩ := hev (he.and (h0.filter_mono nhdsWithin_le_nhds))
    refine ⟨r, hr, .inl (fun u hu => ?_)⟩
    obtain ⟨⟨-, h2⟩, h3⟩ := h1 u hu
    simp only at h2
    linarith
  · have h0' : ∀ᶠ s in 𝓝[>] t, deriv g s ≠ 0 := h0.filter_mono (nhdsWithin_mono t (fun s hs => ne_of_gt hs))
    obtain ⟨r, hr, h1⟩ := hev ((he.and h0').and hana)
    refine ⟨r, hr, ?_⟩
    by_cases hpos : ∃ u ∈ Set.Ioo t r, 0 < deriv g u
    · obtain ⟨u, hu, hpos⟩ := hpos
      refine .inl (fun v hv => ?_)
      by_contra hneg
      have hv' := (h1 v hv).1.1.2
      simp only at hv'
      have hc : ContinuousOn (deriv g) (Set.Ioo t r) := fun w hw => (h1 w hw).2.deriv.continuousAt.continuousWithinAt
      obtain ⟨w, hw, hw0⟩ := isPreconnected_Ioo.intermediate_value hv hu hc (show (0 : ℝ) ∈ Set.Icc (deriv g v) (deriv g u) from
        ⟨by linarith, hpos.le⟩)
      exact (h1 w hw).1.2 hw0
    · push Not at hpos
      refine .inr (fun u hu => ?_)
      have hanti : AntitoneOn g (Set.Ico t r) := by
        refine antitoneOn_of_deriv_nonpos (convex_Ico _ _) (fun w hw => ?_) (fun w hw => ?_) (fun w hw => ?_)
        · rcases hw.1.eq_or_lt with rfl | hlt
          · exact ha.continuousAt.continuousWithinAt
          · exact (h1 w ⟨hlt, hw.2⟩).2.continuousAt.continuousWithinAt
        · rw [interior_Ico] at hw
          exact (h1 w hw).2.differentiableAt.differentiableWithinAt
        · rw [interior_Ico] at hw
          exact hpos w hw
      rw [(h1 u hu).1.1.1, ← hgt]
      exact hanti ⟨le_rfl, lt_trans hu.1 hu.2⟩ ⟨hu.1.le, hu.2⟩ hu.1.le

end

/-! ## Expressions -/

/-- The kinds of expressions whose residuals do not jump. -/
def Expr.Continuous : Expr ℝ → Prop
  | .pointPointPointAngle .. | .pointLineDistance .. | .lineLineAngle .. | .lineCircleTangency .. => False
  | _ => True

theorem Expr.computes (e : Expr ℝ) (h : Nat → ℝ) : ∃ rg, e.computeResidualAndGradient (e.variableIndices.map h) = .ok rg := by
  cases e <;> exact ⟨_, rfl⟩

theorem Expr.hasDerivAt (e : Expr ℝ) (x : Nat → ℝ → ℝ) (x' : Nat → ℝ) (t : ℝ)
    (hx : ∀ v ∈ e.variableIndices, HasDerivAt (x v) (x' v) t) (hs : SmoothAt e (e.variableIndices.map (x · t))) :
    HasDerivAt (fun s => e.residualOf (e.variableIndices.map (x · s))) (dotList (e.gradientOf (e.variableIndices.map (x · t))) (e.variableIndices.map x')) t := by
  obtain ⟨f, g, h1, h2, -, h4⟩ := C13_gradient_is_derivative e x x' t hx hs
  have e1 : (fun s => e.residualOf (e.variableIndices.map (x · s))) = f := by
    funext s
    have hm : e.variableIndices.mapM (fun i => do
        let v ← (fun v => (.ok (.fixed (x v s)) : R (Variable ℝ))) i
        pure v.value) = .ok (e.variableIndices.map (x · s)) := mapM_ok_of _ _ _ (fun a _ => rfl)
    have h5 := h1 s
    obtain ⟨rg, hrg⟩ := e.computes (x · s)
    rw [Expr.calculateResidual, hm, ok_bind, hrg] at h5
    rw [Expr.residualOf, hrg]
    exact Except.ok.inj h5
  have e2 : e.gradientOf (e.variableIndices.map (x · t)) = g := by rw [Expr.gradientOf, h2]
  rw [e1, e2]
  exact h4

theorem Expr.germ (e : Expr ℝ) (m k : Nat → ℝ) {t r : ℝ} (ht : t < r)
    (h : e.Continuous ∨ ∀ s ∈ Set.Ico t r, SmoothAt e (e.variableIndices.map (fun v => m v + s * k v))) :
    Germ (fun s => e.residualOf (e.variableIndices.map (fun v => m v + s * k v)))
      (fun s => dotList (e.gradientOf (e.variableIndices.map (fun v => m v + s * k v))) (e.variableIndices.map k)) t := by
  have hder : ∀ v s, HasDerivAt (fun s => m v + s * k v) (k v) s := fun v s => by
    simpa using ((hasDerivAt_id s).mul_const (k v)).const_add (m v)
  have hana : ∀ v, AnalyticAt ℝ (fun s => m v + s * k v) t := fun v => analyticAt_const.add (analyticAt_id.mul analyticAt_const)
  have smooth : (∀ s ∈ Set.Ico t r, SmoothAt e (e.variableIndices.map (fun v => m v + s * k v))) →
      Germ (fun s => e.residualOf (e.variableIndices.map (fun v => m v + s * k v)))
      (fun s => dotList (e.gradientOf (e.variableIndices.map (fun v => m v + s * k v))) (e.variableIndices.map k)) t := by
    intro h
    exact .of_right ht (e.residual_analytic (fun v s => m v + s * k v) (fun v _ => hana v) (h t ⟨le_rfl, ht⟩))
      (fun s hs => e.hasDerivAt (fun v s => m v + s * k v) k s (fun v _ => hder v s) (h s ⟨hs.1.le, hs.2⟩))
  rcases h with h | h
  · cases e with
    | variableVariableEquality a b => exact smooth (fun s _ => trivial)
    | pointLineIncidence p a b => exact smooth (fun s _ => trivial)
    | lineLineParallelism a b c d => exact smooth (fun s _ => trivial)
    | lineLinePerpendicularity a b c d => exact smooth (fun s _ => trivial)
    | pointPointDistance p q d =>
      refine ((germ_dist (m p) (m (p + 1)) (m q) (m (q + 1)) (k p) (k (p + 1)) (k q) (k (q + 1)) t).sub (.const d)).congr (fun s => rfl) (fun s => ?_)
      simp only [Expr.gradientOf, Expr.variableIndices, List.map_cons, List.map_nil, Expr.computeResidualAndGradient, ppdResGrad, dotList,
        List.zipWith_cons_cons, List.zipWith_nil_left, List.sum_cons, List.sum_nil]
      simp only [FloatOps.sqrt]
      ring
    | pointCircleIncidence p c r' =>
      have hr : Germ (fun s => m r' + s * k r') (fun _ => k r') t := .of_right ht (hana r') (fun s _ => hder r' s)
      refine ((germ_dist (m p) (m (p + 1)) (m c) (m (c + 1)) (k p) (k (p + 1)) (k c) (k (c + 1)) t).sub hr).congr (fun s => rfl) (fun s => ?_)
      simp only [Expr.gradientOf, Expr.variableIndices, List.map_cons, List.map_nil, Expr.computeResidualAndGradient, pciResGrad, ppdResGrad, dotList,
        List.cons_append, List.nil_append, List.zipWith_cons_cons, List.zipWith_nil_left, List.sum_cons, List.sum_nil]
      simp only [FloatOps.sqrt]
      ring
    | segmentSegmentLengthEquality a b c d =>
      refine ((germ_dist (m c) (m (c + 1)) (m d) (m (d + 1)) (k c) (k (c + 1)) (k d) (k (d + 1)) t).sub
        (germ_dist (m a) (m (a + 1)) (m b) (m (b + 1)) (k a) (k (a + 1)) (k b) (k (b + 1)) t)).congr (fun s => ?_) (fun s => ?_)
      · simp only [Expr.residualOf, Expr.variableIndices, List.map_cons, List.map_nil, Expr.computeResidualAndGradient, ssleResGrad, ppdResGrad,
          FloatOps.sqrt]
        ring
      · simp only [Expr.gradientOf, Expr.variableIndices, List.map_cons, List.map_nil, Expr.computeResidualAndGradient, ssleResGrad, ppdResGrad, dotList,
          List.cons_append, List.nil_append, List.zipWith_cons_cons, List.zipWith_nil_left, List.sum_cons, List.sum_nil]
        simp only [FloatOps.sqrt]
        ring
    | pointPointPointAngle => exact h.elim
    | pointLineDistance => exact h.elim
    | lineLineAngle => exact h.elim
    | lineCircleTangency => exact h.elim
  · exact smooth h

end Fiksi
