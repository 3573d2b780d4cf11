import Verif.Props.LineSearch
import Mathlib.Analysis.SpecialFunctions.Pow.NNReal
/-!
# C58: a step that does not meet the Wolfe conditions
-/
namespace Fiksi

open Spec FloatOps

/-- The value under the root. -/
noncomputable def brinkQ (t : ℝ) : ℝ := 20 - 2 * t - t ^ 2 / 10

/-- The residual and its derivative: the objective falls ever faster, and is 0 from `sqrt 300 - 10 < 8` on. -/
noncomputable def brinkRes (t : ℝ) : ℝ := Real.sqrt (brinkQ t)
noncomputable def brinkJac (t : ℝ) : ℝ := (-1 - t / 10) / Real.sqrt (brinkQ t)

/-- A problem with one variable and this residual. -/
noncomputable def brink : Problem ℝ where
  numVariables := 1
  numResiduals := 1
  residuals := fun
    | [x] => .ok [brinkRes x]
    | _ => .error .indexOutOfBounds
  denseJacobian := fun v _ _ => match v with
    | [x] => .ok ([brinkRes x], [brinkJac x])
    | _ => .error .indexOutOfBounds
  sparseJacobian := fun v _ _ => match v with
    | [x] => .ok ([brinkRes x], [(0, 0, brinkJac x)])
    | _ => .error .indexOutOfBounds

theorem brink_denseOk : brink.DenseOk := by
  intro x rs jac hx _ _
  match x, hx with
  | [a], _ => exact ⟨_, _, rfl, rfl, rfl, rfl⟩

/-- The objective and half its derivative along the line. -/
noncomputable def brinkPhi (t : ℝ) : ℝ := max 0 (brinkQ t)
noncomputable def brinkPsi (t : ℝ) : ℝ := if 0 < brinkQ t then -1 - t / 10 else 0

theorem brink_along (t : ℝ) : along [0] [1] t = [t] := by simp [along]

theorem brinkRes_sq (t : ℝ) : brinkRes t ^ 2 = brinkPhi t := by
  rw [brinkRes, brinkPhi]
  rcases le_total 0 (brinkQ t) with h | h
  · rw [Real.sq_sqrt h, max_eq_right h]
  · rw [Real.sqrt_eq_zero_of_nonpos h, max_eq_left h]
    norm_num

theorem brink_line : brink.Line [0] [1] brinkPhi brinkPsi := by
  intro t rs jac _ _ _
  rw [brink_along]
  refine ⟨_, _, rfl, rfl, rfl, rfl, ?_, ?_⟩
  · show ∑ c ∈ Finset.range 1, [brinkRes t].getD c 0 ^ 2 = _
    simp [brinkRes_sq]
  · show ∑ c ∈ Finset.range 1, [brinkRes t].getD c 0 * ∑ k ∈ Finset.range 1, [brinkJac t].getD (c * 1 + k) 0 * [(1 : ℝ)].getD k 0 = _
    simp only [Finset.sum_range_one, List.getD_cons_zero, Nat.zero_mul, Nat.add_zero, mul_one, brinkPsi, brinkRes, brinkJac]
    split
    · rename_i h
      have : Real.sqrt (brinkQ t) ≠ 0 := (Real.sqrt_pos.2 h).ne'
      field_simp
    · rename_i h
      rw [Real.sqrt_eq_zero_of_nonpos (not_lt.1 h), zero_mul]

theorem brinkQ_pos {t : ℝ} (h1 : -10 ≤ t) (h2 : t ≤ 5) : 0 < brinkQ t := by
  rw [brinkQ]
  nlinarith

theorem brinkPhi_of {t : ℝ} (h1 : -10 ≤ t) (h2 : t ≤ 5) : brinkPhi t = 20 - 2 * t - t ^ 2 / 10 := by
  rw [brinkPhi, max_eq_right (brinkQ_pos h1 h2).le, brinkQ]

theorem brinkPsi_of {t : ℝ} (h1 : -10 ≤ t) (h2 : t ≤ 5) : brinkPsi t = -1 - t / 10 := by
  rw [brinkPsi, if_pos (brinkQ_pos h1 h2)]

theorem brink_rejects {t : ℝ} (h1 : 0 < t) (h2 : t ≤ 5) : ¬ Accepted brinkPhi brinkPsi t := by
  have e0 := brinkPsi_of (t := 0) (by norm_num) (by norm_num)
  have e1 := brinkPsi_of (t := t) (by linarith) h2
  rintro (⟨-, h⟩ | ⟨-, -, h⟩) <;>
  · simp only [e0, e1] at h
    linarith

theorem brink_rejects_left : ¬ Accepted brinkPhi brinkPsi (-10) := by
  have e0 := brinkPhi_of (t := 0) (by norm_num) (by norm_num)
  have e1 := brinkPhi_of (t := -10) (by norm_num) (by norm_num)
  have e2 := brinkPsi_of (t := 0) (by norm_num) (by norm_num)
  rintro (⟨h, -⟩ | ⟨h, -⟩) <;>
  · simp only [e0, e1, e2] at h
    norm_num at h

theorem brink_search (fuel : Nat) : ∀ (n : Nat) {st : EvalState ℝ}, st.Fresh brink → ∀ {a c : ℝ}, 0 ≤ a → a < 5 → 0 < c → c ≤ 5 →
    ∃ t st', search brink [0] [1] (brinkPhi 0) (brinkPsi 0) fuel n st (pt brinkPhi brinkPsi a) (pt brinkPhi brinkPsi 5) (pt brinkPhi brinkPsi c) =
      .ok (pt brinkPhi brinkPsi t, st') ∧ 0 < t ∧ t ≤ 5 := by
  intro n
  induction n with
  | zero =>
    intro st hst a c ha ha5 hc hc5
    obtain ⟨st', h1, -⟩ := brink_line.eval rfl rfl hst (pt brinkPhi brinkPsi c).p
    rw [search, h1, ok_bind]
    exact ⟨c, st', rfl, hc, hc5⟩
  | succ n ih =>
    intro st hst a c ha ha5 hc hc5
    have hsec : secant (pt brinkPhi brinkPsi a) (pt brinkPhi brinkPsi 5) = -10 := by
      simp only [secant, pt]
      rw [brinkPsi_of (t := a) (by linarith) ha5.le, brinkPsi_of (t := 5) (by norm_num) le_rfl, div_eq_iff (by
        intro h
        linarith)]
      ring
    obtain ⟨st1, h1, h1'⟩ := brink_line.eval rfl rfl hst (-10)
    obtain ⟨st2, h2, h2'⟩ := brink_line.eval rfl rfl h1' ((a + 5) / 2)
    have hmid : (ratio 5 10 * ((pt brinkPhi brinkPsi a).p + (pt brinkPhi brinkPsi 5).p) : ℝ) = (a + 5) / 2 := by
      rw [ratio_real, pt, pt]; push_cast; ring
    have hm5 : (a + 5) / 2 ≤ 5 := by linarith
    have hm0 : 0 < (a + 5) / 2 := by linarith
    have hwide : ltB (ratio 66 100 * ((pt brinkPhi brinkPsi 5).p - (pt brinkPhi brinkPsi a).p) : ℝ)
        ((pt brinkPhi brinkPsi 5).p - (pt brinkPhi brinkPsi a).p) = true := by
      rw [ltB_iff, ratio_real, pt, pt]
      push_cast
      linarith
    have n1 : ¬ eqB (pt brinkPhi brinkPsi (-10)).p (pt brinkPhi brinkPsi 5).p = true := by
      rw [eqB_real]; simp only [pt]; norm_num
    have n2 : ¬ eqB (pt brinkPhi brinkPsi (-10)).p (pt brinkPhi brinkPsi a).p = true := by
      rw [eqB_real]; simp only [pt]; intro h; linarith
    rw [search, secant2, hsec, h1, ok_bind]
    simp only
    rw [if_neg (fun h => brink_rejects_left (satisfiesWolfe_iff.1 h)), update_eq, if_pos (.inl (by linarith)), ok_bind]
    simp only
    rw [if_neg n1, if_neg n2, pure_eq_ok, ok_bind]
    simp only
    rw [if_pos hwide, hmid, h2, ok_bind]
    simp only
    rw [if_neg (fun h => brink_rejects hm0 hm5 (satisfiesWolfe_iff.1 h)), update_eq, if_neg (by
        rintro (h | h) <;> linarith), if_neg (by
        rw [brinkPsi_of (by linarith) hm5]
        intro h
        linarith), if_pos (by
        rw [brinkPhi_of (by linarith) hm5, brinkPhi_of (by norm_num) (by norm_num)]
        have : (0 : ℝ) ≤ ((a + 5) / 2) ^ 2 := by positivity
        linarith), ok_bind]
    exact ih h2' hm0.le (by linarith) hm0 hm5

/-- The buffers at the start. -/
noncomputable def brinkStart : EvalState ℝ := ⟨[0], [brinkJac 0], [brinkRes 0], [0 + brinkJac 0 * brinkRes 0]⟩

theorem brink_starts : brinkStart.Starts brink [0] :=
  ⟨⟨rfl, rfl, rfl, rfl⟩, ⟨[0], [0], rfl, rfl, .zero, rfl⟩, rfl⟩

theorem brink_phi : brink.phi [0] [1] = brinkPhi := by
  funext t
  show ∑ c ∈ Finset.range 1, brink.residualAt (along [0] [1] t) c ^ 2 = _
  rw [brink_along]
  have : brink.residualAt [t] 0 = brinkRes t := rfl
  simp [this, brinkRes_sq]

theorem brink_deriv {t : ℝ} (h1 : -10 ≤ t) (h2 : t ≤ 5) : deriv brinkPhi t = 2 * (-1 - t / 10) := by
  have hc : Continuous brinkQ := by unfold brinkQ; fun_prop
  have he : brinkPhi =ᶠ[nhds t] brinkQ := by
    filter_upwards [hc.continuousAt.eventually (lt_mem_nhds (brinkQ_pos h1 h2))] with s hs
    rw [brinkPhi, max_eq_right (le_of_lt hs)]
  rw [he.deriv_eq]
  have := ((((hasDerivAt_id t).const_mul 2).const_sub 20)).sub (((hasDerivAt_id t).pow 2).div_const 10)
  refine HasDerivAt.deriv (this.congr_deriv ?_)
  simp
  ring

theorem brink_deriv_right : deriv brinkPhi 10 = 0 := by
  have hc : Continuous brinkQ := by unfold brinkQ; fun_prop
  have he : brinkPhi =ᶠ[nhds 10] fun _ => 0 := by
    filter_upwards [hc.continuousAt.eventually (gt_mem_nhds (show brinkQ 10 < 0 by norm_num [brinkQ]))] with s hs
    rw [brinkPhi, max_eq_left (le_of_lt hs)]
  rw [he.deriv_eq]
  simp

/-- C58 is false: the documentation says that the step returned satisfies the Wolfe conditions. Here the search returns, after its 100 rounds, a
step that meets neither these nor the approximate conditions: the slope has become steeper. The step 10 meets the Wolfe conditions. (The
search never looks beyond 5: the function that should find a bracket is not implemented.) -/
theorem C58_wolfe_fails (fuel : Nat) : brink.DenseOk ∧ brinkStart.Starts brink [0] ∧
    (∃ c st', lineSearch brink [0] [1] (sumSquares brinkStart.residuals) fuel brinkStart = .ok (c, st') ∧ ¬ GoodStep brink [0] [1] c.p) ∧
    GoodStep brink [0] [1] 10 := by
  have e0 := brinkPhi_of (t := 0) (by norm_num) (by norm_num)
  have d0 := brink_deriv (t := 0) (by norm_num) (by norm_num)
  refine ⟨brink_denseOk, brink_starts, ?_, ?_⟩
  · obtain ⟨hf, h1, h2⟩ := brink_starts.values (d := [1]) rfl rfl brink_line
    obtain ⟨st1, h3, h3'⟩ := brink_line.eval rfl rfl hf 1
    obtain ⟨st2, h4, h4'⟩ := brink_line.eval rfl rfl h3' 5
    have e : (FloatOps.ofNat 5 : ℝ) = 5 := by rw [ofNat_real]; norm_num
    obtain ⟨t, st3, h5, h6, h7⟩ := brink_search fuel 100 h4' (a := 0) (c := 1) le_rfl (by norm_num) (by norm_num) (by norm_num)
    refine ⟨pt brinkPhi brinkPsi t, st3, ?_, ?_⟩
    · rw [lineSearch, lineSearchRun, h3, ok_bind, h1, h2, e]
      simp only
      rw [if_neg (fun h => brink_rejects (by norm_num) (by norm_num) (satisfiesWolfe_iff.1 h)), h4, ok_bind]
      exact h5
    · have dt := brink_deriv (t := t) (by linarith) h7
      rw [GoodStep, brink_phi]
      show ¬ (Wolfe _ _ _ _ t ∨ ApproxWolfe _ _ _ _ _ t)
      rintro (⟨-, h⟩ | ⟨-, -, h⟩) <;>
      · rw [d0, dt] at h
        linarith
  · rw [GoodStep, brink_phi]
    refine .inl ⟨?_, ?_⟩
    · rw [d0, e0, brinkPhi, max_eq_left (by norm_num [brinkQ])]
      norm_num
    · rw [d0, brink_deriv_right]
      norm_num

/-! ## Cases for the theorems about the line search -/

theorem bowl_diffAlong (x y d e : ℝ) : bowl.DiffAlong [x, y] [d, e] := by
  intro t rs jac r j _ _ _ h c hc
  have hc' : c = 0 ∨ c = 1 := by
    have : c < 2 := hc
    omega
  cases h
  show HasDerivAt (fun s => bowl.residualAt [x + s * d, y + s * e] c) (∑ k ∈ Finset.range 2, [(1 : ℝ), 0, 0, 1 / 2].getD (c * 2 + k) 0 * [d, e].getD k 0) t
  rcases hc' with rfl | rfl
  · have h0 : (fun s => bowl.residualAt [x + s * d, y + s * e] 0) = fun s => x + s * d := rfl
    rw [h0]
    simpa [Finset.sum_range_succ] using ((hasDerivAt_id t).mul_const d).const_add x
  · have h0 : (fun s => bowl.residualAt [x + s * d, y + s * e] 1) = fun s => (y + s * e) * (1 / 2) := rfl
    rw [h0]
    have := (((hasDerivAt_id t).mul_const e).const_add y).mul_const (1 / 2)
    refine this.congr_deriv ?_
    simp [Finset.sum_range_succ]
    ring

/-- The buffers at the start of the search below. -/
noncomputable def bowlStart : EvalState ℝ :=
  ⟨[1, 1], [1, 0, 0, 1 / 2], [1, 1 * (1 / 2)], [0 + 1 * 1 + 0 * (1 * (1 / 2)), 0 + 0 * 1 + 1 / 2 * (1 * (1 / 2))]⟩

theorem bowl_starts : bowlStart.Starts bowl [1, 1] :=
  ⟨⟨rfl, rfl, rfl, rfl⟩, ⟨[0, 0], [0, 0, 0, 0], rfl, rfl, .zero, rfl⟩, rfl⟩

theorem bowl_objective : bowl.phi [1, 1] [-1, -1 / 4] = fun t => (1 + t * -1) ^ 2 + ((1 + t * (-1 / 4)) * (1 / 2)) ^ 2 := by
  funext t
  show ∑ c ∈ Finset.range 2, bowl.residualAt [1 + t * -1, 1 + t * (-1 / 4)] c ^ 2 = _
  rw [Finset.sum_range_succ, Finset.sum_range_one]
  rfl

theorem bowl_slope (t : ℝ) : HasDerivAt (bowl.phi [1, 1] [-1, -1 / 4]) (65 / 32 * t - 17 / 8) t := by
  rw [bowl_objective]
  have := ((((hasDerivAt_id t).mul_const (-1)).const_add 1).pow 2).add
    (((((hasDerivAt_id t).mul_const (-1 / 4)).const_add 1).mul_const (1 / 2)).pow 2)
  refine this.congr_deriv ?_
  simp
  ring

/-- Case for `C58_slope` and `C58_affine`: in the problem with the residuals `x` and `y / 2`, from `(1, 1)` along `(-1, -1/4)`. -/
example (fuel : Nat) : ∃ c st', lineSearch bowl [1, 1] [-1, -1 / 4] (sumSquares bowlStart.residuals) fuel bowlStart = .ok (c, st') ∧
    GoodStep bowl [1, 1] [-1, -1 / 4] c.p := by
  obtain ⟨c, st', h1, h2, -⟩ := C58_affine bowl_denseOk (x := [1, 1]) (d := [-1, -1 / 4]) rfl rfl (bowl_diffAlong _ _ _ _) bowl_starts
    (α := fun c => if c = 0 then 1 else 1 / 2) (β := fun c => if c = 0 then -1 else -1 / 8) (by
      intro t c hc
      have hc' : c = 0 ∨ c = 1 := by
        have : c < 2 := hc
        omega
      rcases hc' with rfl | rfl
      · show (1 : ℝ) + t * -1 = _
        simp
      · show (1 + t * (-1 / 4)) * (1 / 2) = _
        simp
        ring) (by rw [(bowl_slope 0).deriv]; norm_num) fuel
  exact ⟨c, st', h1, h2⟩

/-- Case for `C58_convex_partial` and `C58_returns_partial`: the same line. -/
example : ConvexOn ℝ (Set.Icc 0 5) (bowl.phi [1, 1] [-1, -1 / 4]) ∧ deriv (bowl.phi [1, 1] [-1, -1 / 4]) 0 < 0 ∧
    0 ≤ deriv (bowl.phi [1, 1] [-1, -1 / 4]) 5 ∧
    (∀ s t, 0 ≤ s → s ≤ t → t ≤ 5 → deriv (bowl.phi [1, 1] [-1, -1 / 4]) t - deriv (bowl.phi [1, 1] [-1, -1 / 4]) s ≤ 3 * (t - s)) ∧
    (3 : ℝ) * (5 * (66 / 100) ^ 100) ≤ 9 / 10 * -deriv (bowl.phi [1, 1] [-1, -1 / 4]) 0 ∧
    Tame (bowl.phi [1, 1] [-1, -1 / 4]) (deriv (bowl.phi [1, 1] [-1, -1 / 4])) 0 5 := by
  have hd : deriv (bowl.phi [1, 1] [-1, -1 / 4]) = fun t => 65 / 32 * t - 17 / 8 := funext (fun t => (bowl_slope t).deriv)
  have hcont : Continuous (bowl.phi [1, 1] [-1, -1 / 4]) := by rw [bowl_objective]; fun_prop
  refine ⟨?_, ?_, ?_, ?_, ?_, ?_⟩
  · refine MonotoneOn.convexOn_of_deriv (convex_Icc 0 5) hcont.continuousOn (fun t _ => (bowl_slope t).differentiableAt.differentiableWithinAt) ?_
    rw [hd]
    intro s _ t _ hst
    simp only
    linarith
  · rw [hd]; norm_num
  · rw [hd]; norm_num
  · rw [hd]
    intro s t _ h _
    simp only
    linarith
  · rw [hd]; norm_num
  · refine ⟨hcont.continuousOn, fun t _ => ?_⟩
    rw [hd, bowl_objective]
    rcases le_or_gt (68 / 65) t with h | h
    · exact ⟨t + 1, by linarith, .inl (fun u hu => by have := hu.1; simp only; linarith)⟩
    · refine ⟨68 / 65, h, .inr (fun u hu => ?_)⟩
      have h1 := hu.1
      have h2 := hu.2
      simp only
      nlinarith [mul_nonneg (sub_nonneg.2 h1.le) (sub_nonneg.2 h2.le), mul_nonneg (sub_nonneg.2 h1.le) (sub_nonneg.2 h.le)]

end Fiksi
